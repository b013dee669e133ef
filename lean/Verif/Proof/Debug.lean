import Verif.Model.Debug
import Verif.Proof.MsgpackCodec
import Verif.Props.Msgpack
/-
The listing of encoded data.
-/
set_option linter.unusedSimpArgs false
namespace Verif

namespace Spec

/-- how many bytes an object takes -/
def packSize (o : Obj) : Nat :=
  match pack o with
  | .ok b => b.length
  | .error _ => 0

/-- what is listed for the type of a field -/
def listedType (t : TypeWire) : Obj :=
  match t.args with
  | none => .str t.name
  | some d => .map [("type".toList, .str t.name), ("args".toList, .map d)]

/-- how many bytes the data of a layer take -/
def layerSize (l : WireLayer) : Nat :=
  packSize (.int l.num) + (l.cols.map (fun c => packSize (.bool false) + packSize (.arr c.2.2))).sum

/-- the lines for the schema of a layer -/
def listedSchema (e : Str × WireLayer) : List PLine :=
  ⟨" * %s".toList, [.s (.str e.1)]⟩ :: e.2.cols.map (fun c => ⟨"  - %s = %s".toList, [.s (.str c.1), .s (listedType c.2.1)]⟩)

/-- the lines for a column -/
def listedColumn (c : Str × TypeWire × List Obj) : List PLine :=
  [⟨"  - %s".toList, [.s (.str c.1)]⟩, ⟨"  - Special encoding: %s".toList, [.r (.bool false)]⟩, ⟨" ==> %s".toList, [.s (.arr c.2.2)]⟩]

/-- the lines for the data of a layer -/
def listedLayer (e : Str × WireLayer) : List PLine :=
  [⟨"[%s]".toList, [.s (.str e.1)]⟩, ⟨" * Segment length: %d ".toList, [.d (layerSize e.2)]⟩, ⟨" * Num nodes: %d".toList, [.d e.2.num]⟩] ++
    e.2.cols.flatMap listedColumn

/-- the listing of a document: everything it holds, in the order it is written -/
def listing (x : Wire) : List PLine :=
  [⟨"-- Content --".toList, []⟩, ⟨"Magic: %s".toList, [.r (.bin magic)]⟩, ⟨"Document properties:".toList, []⟩, ⟨"%s".toList, [.s (.map x.props)]⟩,
    ⟨"Types:".toList, []⟩, ⟨"%s".toList, [.s (.arr (x.layers.map (fun e => .str e.1)))]⟩, ⟨"Schema: ".toList, []⟩] ++
  x.layers.flatMap listedSchema ++
  [⟨"Texts: ".toList, []⟩, ⟨" * Length: %d bytes".toList, [.d (packSize (.map (x.texts.map (fun e => (e.1, .arr (e.2.map .str))))))]⟩] ++
  x.texts.map (fun e => ⟨"%s = %s".toList, [.s (.str e.1), .r (.arr (e.2.map .str))]⟩) ++
  [⟨"Types data:".toList, []⟩] ++
  x.layers.flatMap listedLayer

/-- a line that is printed, or an object that is read -/
inductive Listed where
  | line (l : PLine)
  | obj (o : Obj)

/-- the lines -/
def linesOf : List Listed → List PLine
  | [] => []
  | .line l :: s => l :: linesOf s
  | .obj _ :: s => linesOf s

/-- how many bytes the objects take -/
def sizeOf : List Listed → Nat
  | [] => 0
  | .line _ :: s => sizeOf s
  | .obj o :: s => packSize o + sizeOf s

/-- the lines that are printed when there are `k` bytes: those before the first object that is not all there -/
def printed : Nat → List Listed → List PLine
  | _, [] => []
  | k, .line l :: s => l :: printed k s
  | k, .obj o :: s => if packSize o ≤ k then printed (k - packSize o) s else []

/-- what is read for a field, and the line then printed -/
def fieldItems (c : Str × TypeWire × List Obj) : List Listed :=
  (match c.2.1.args with
    | none => [.obj (.str c.1), .obj (.bool false), .obj (.str c.2.1.name)]
    | some d => [.obj (.str c.1), .obj (.bool true), .obj (.str c.2.1.name), .obj (.map d)]) ++
  [.line ⟨"  - %s = %s".toList, [.s (.str c.1), .s (listedType c.2.1)]⟩]

/-- for the schema of a layer -/
def schemaItems (e : Str × WireLayer) : List Listed :=
  [.line ⟨" * %s".toList, [.s (.str e.1)]⟩, .obj (.int e.2.cols.length)] ++ e.2.cols.flatMap fieldItems

/-- for a column -/
def columnItems (c : Str × TypeWire × List Obj) : List Listed :=
  [.line ⟨"  - %s".toList, [.s (.str c.1)]⟩, .obj (.bool false), .line ⟨"  - Special encoding: %s".toList, [.r (.bool false)]⟩,
    .obj (.arr c.2.2), .line ⟨" ==> %s".toList, [.s (.arr c.2.2)]⟩]

/-- for the data of a layer -/
def layerItems (e : Str × WireLayer) : List Listed :=
  [.line ⟨"[%s]".toList, [.s (.str e.1)]⟩, .obj (.int (layerSize e.2)), .obj (.int e.2.num),
    .line ⟨" * Segment length: %d ".toList, [.d (layerSize e.2)]⟩, .line ⟨" * Num nodes: %d".toList, [.d e.2.num]⟩] ++ e.2.cols.flatMap columnItems

/-- all that `debug` prints and reads, after the magic bytes -/
def items (x : Wire) : List Listed :=
  let texts := x.texts.map (fun e => (e.1, Obj.arr (e.2.map .str)))
  [.line ⟨"-- Content --".toList, []⟩, .line ⟨"Magic: %s".toList, [.r (.bin magic)]⟩, .line ⟨"Document properties:".toList, []⟩,
    .obj (.int (packSize (.map x.props))), .obj (.map x.props), .line ⟨"%s".toList, [.s (.map x.props)]⟩,
    .line ⟨"Types:".toList, []⟩, .obj (.arr (x.layers.map (fun e => .str e.1))), .line ⟨"%s".toList, [.s (.arr (x.layers.map (fun e => .str e.1)))]⟩,
    .line ⟨"Schema: ".toList, []⟩] ++
  x.layers.flatMap schemaItems ++
  [.line ⟨"Texts: ".toList, []⟩, .obj (.int (packSize (.map texts))), .line ⟨" * Length: %d bytes".toList, [.d (packSize (.map texts))]⟩, .obj (.map texts)] ++
  x.texts.map (fun e => .line ⟨"%s = %s".toList, [.s (.str e.1), .r (.arr (e.2.map .str))]⟩) ++
  [.line ⟨"Types data:".toList, []⟩] ++
  x.layers.flatMap layerItems

end Spec

open Spec (Listed linesOf printed)

theorem packSize_eq {o : Obj} {b : Bytes} (h : pack o = .ok b) : Spec.packSize o = b.length := by
  unfold Spec.packSize
  rw [h]

theorem linesOf_append : ∀ s1 s2 : List Listed, linesOf (s1 ++ s2) = linesOf s1 ++ linesOf s2
  | [], _ => rfl
  | .line l :: s1, s2 => by simp [linesOf, linesOf_append s1 s2]
  | .obj _ :: s1, s2 => by simp [linesOf, linesOf_append s1 s2]

theorem sizeOf_append : ∀ s1 s2 : List Listed, Spec.sizeOf (s1 ++ s2) = Spec.sizeOf s1 + Spec.sizeOf s2
  | [], _ => by simp [Spec.sizeOf]
  | .line l :: s1, s2 => by simp [Spec.sizeOf, sizeOf_append s1 s2]
  | .obj _ :: s1, s2 => by simp [Spec.sizeOf, sizeOf_append s1 s2]; omega

theorem printed_left : ∀ {k : Nat} (s1 s2 : List Listed), k < Spec.sizeOf s1 → printed k (s1 ++ s2) = printed k s1
  | _, [], _, h => absurd h (by simp [Spec.sizeOf])
  | k, .line l :: s1, s2, h => by simp [printed, printed_left s1 s2 h]
  | k, .obj o :: s1, s2, h => by
    simp only [List.cons_append, printed]
    split
    · exact printed_left s1 s2 (by simp [Spec.sizeOf] at h; omega)
    · rfl

theorem printed_right : ∀ {k : Nat} (s1 s2 : List Listed), Spec.sizeOf s1 ≤ k → printed k (s1 ++ s2) = linesOf s1 ++ printed (k - Spec.sizeOf s1) s2
  | _, [], _, _ => by simp [Spec.sizeOf, linesOf]
  | k, .line l :: s1, s2, h => by simp [printed, linesOf, Spec.sizeOf, printed_right s1 s2 (show Spec.sizeOf s1 ≤ k from h)]
  | k, .obj o :: s1, s2, h => by
    simp only [Spec.sizeOf] at h
    simp only [List.cons_append, printed, linesOf, Spec.sizeOf]
    rw [if_pos (by omega), printed_right s1 s2 (by omega), Nat.sub_sub]

theorem printed_prefix : ∀ (k : Nat) (s : List Listed), printed k s <+: linesOf s
  | _, [] => List.prefix_refl _
  | k, .line l :: s => by
    obtain ⟨t, ht⟩ := printed_prefix k s
    exact ⟨t, by simp [printed, linesOf, ht]⟩
  | k, .obj o :: s => by
    simp only [printed, linesOf]
    split
    · exact printed_prefix _ s
    · exact List.nil_prefix

theorem flatMap_single {α β : Type} (f : α → β) : ∀ l : List α, l.flatMap (fun a => [f a]) = l.map f
  | [] => rfl
  | a :: l => by rw [List.flatMap_cons, flatMap_single f l]; rfl

/-- on `bs`, whatever follows, `p` prints the lines of `s` and gives `a`; on less than `bs` it prints the lines before the first
object that is not all there, and raises StopIteration -/
structure Prints {α : Type} (p : D α) (bs : Bytes) (a : α) (s : List Listed) : Prop where
  all : ∀ rest, p (bs ++ rest) = (linesOf s, .ok (a, rest))
  cut : ∀ k, k < bs.length → p (bs.take k) = (printed k s, .error .stopIteration)
  size : Spec.sizeOf s = bs.length

namespace Prints
variable {α β : Type}

theorem bind_eq (p : D α) (f : α → D β) (bs : Bytes) : (p >>= f) bs = (match p bs with
    | (ls, .error e) => (ls, .error e)
    | (ls, .ok (a, r)) => match f a r with
      | (ls2, x) => (ls ++ ls2, x)) := rfl

theorem pure (a : α) : Prints (pure a : D α) [] a [] := ⟨fun _ => rfl, fun k h => absurd h (by simp), rfl⟩

theorem bind {p : D α} {f : α → D β} {b1 b2 : Bytes} {a : α} {b : β} {l1 l2 : List Listed} (h1 : Prints p b1 a l1)
    (h2 : Prints (f a) b2 b l2) : Prints (p >>= f) (b1 ++ b2) b (l1 ++ l2) where
  all rest := by
    rw [bind_eq, List.append_assoc, h1.all]
    simp only
    rw [h2.all, linesOf_append]
  cut k hk := by
    rw [bind_eq, List.take_append]
    by_cases hl : k < b1.length
    · rw [show k - b1.length = 0 by omega, List.take_zero, List.append_nil, h1.cut k hl, printed_left _ _ (by rw [h1.size]; exact hl)]
    · rw [List.take_of_length_le (by omega : b1.length ≤ k), h1.all]
      simp only
      rw [h2.cut (k - b1.length) (by simp at hk; omega), printed_right _ _ (by rw [h1.size]; omega), h1.size]
  size := by rw [sizeOf_append, h1.size, h2.size, List.length_append]

theorem bindN {p : D α} {f : α → D β} {bs : Bytes} {a : α} {b : β} {l1 l2 : List Listed} (h1 : Prints p [] a l1)
    (h2 : Prints (f a) bs b l2) : Prints (p >>= f) bs b (l1 ++ l2) := bind h1 h2

theorem say {fmt : Str} {args : List PArg} {f : Unit → D β} {bs : Bytes} {b : β} {l : List Listed} (h : Prints (f ()) bs b l) :
    Prints (D.say fmt args >>= f) bs b (.line ⟨fmt, args⟩ :: l) :=
  bind (b1 := []) (l1 := [.line ⟨fmt, args⟩]) ⟨fun _ => rfl, fun k h => absurd h (by simp), rfl⟩ h

theorem say1 {fmt : Str} {args : List PArg} : Prints (D.say fmt args) [] () [.line ⟨fmt, args⟩] :=
  ⟨fun _ => rfl, fun k h => absurd h (by simp), rfl⟩

theorem lift {x : Except PyErr α} {a : α} (hx : x = .ok a) {f : α → D β} {bs : Bytes} {b : β} {l : List Listed} (h : Prints (f a) bs b l) :
    Prints (D.lift x >>= f) bs b l := by
  subst hx
  exact bind (b1 := []) (l1 := []) ⟨fun _ => rfl, fun k h => absurd h (by simp), rfl⟩ h

theorem next {o : Obj} {b1 : Bytes} (hp : pack o = .ok b1) (hk : o.KeysOk) {f : Obj → D β} {bs : Bytes} {b : β} {l : List Listed}
    (h : Prints (f o) bs b l) : Prints (D.read pnext >>= f) (b1 ++ bs) b (.obj o :: l) := by
  refine bind (l1 := [.obj o]) ⟨fun rest => ?_, fun k hk' => ?_, by simp [Spec.sizeOf, packSize_eq hp]⟩ h
  · show ([], pnext (b1 ++ rest)) = _
    rw [Reads.next hp hk rest]
    rfl
  · show ([], pnext (b1.take k)) = _
    unfold pnext
    simp only [printed]
    rw [if_neg (by rw [packSize_eq hp]; omega)]
    rw [C30_truncated hp hk (b1.take k) (b1.drop k) (List.take_append_drop _ _).symm (by simp; omega)]

theorem next0 {o : Obj} {b1 : Bytes} (hp : pack o = .ok b1) (hk : o.KeysOk) {f : Obj → D β} {b : β} {l : List Listed}
    (h : Prints (f o) [] b l) : Prints (D.read pnext >>= f) b1 b (.obj o :: l) := by
  have := next hp hk h
  rwa [List.append_nil] at this

theorem done {p : D α} {bs : Bytes} {a : α} {l : List Listed} {f : α → D β} {b : β} (h : Prints p bs a l) (hf : f a = Pure.pure b) :
    Prints (p >>= f) bs b l := by
  have := bind (f := f) (b2 := []) (l2 := []) h (by rw [hf]; exact pure b)
  simpa using this

theorem times {γ : Type} {p : D β} {g : γ → Except PyErr Bytes} {v : γ → β} {ls : γ → List Listed} : ∀ {l : List γ} {bs},
    catL (l.map g) = .ok bs → (∀ a ∈ l, ∀ b, g a = .ok b → Prints p b (v a) (ls a)) →
    Prints (D.times p l.length) bs (l.map v) (l.flatMap ls)
  | [], bs, h, _ => by cases h; exact pure _
  | a :: l, bs, h, hp => by
    obtain ⟨x, y, h1, h2, rfl⟩ := cat_ok h
    exact (hp a (by simp) x h1).bind ((times h2 (fun a ha => hp a (by simp [ha]))).done rfl)

theorem each {γ : Type} {f : α → D β} {k : γ → α} {g : γ → Except PyErr Bytes} {v : γ → β} {ls : γ → List Listed} : ∀ {l : List γ} {bs},
    catL (l.map g) = .ok bs → (∀ a ∈ l, ∀ b, g a = .ok b → Prints (f (k a)) b (v a) (ls a)) →
    Prints (D.each f (l.map k)) bs (l.map v) (l.flatMap ls)
  | [], bs, h, _ => by cases h; exact pure _
  | a :: l, bs, h, hp => by
    obtain ⟨x, y, h1, h2, rfl⟩ := cat_ok h
    exact (hp a (by simp) x h1).bind ((each h2 (fun a ha => hp a (by simp [ha]))).done rfl)

theorem field {c : Str × TypeWire × List Obj} {bs} (h : fieldBytes c.1 c.2.1 = .ok bs) (hk : ∀ d, c.2.1.args = some d → (Obj.map d).KeysOk) :
    Prints D.field bs (.str c.1, Spec.listedType c.2.1) (Spec.fieldItems c) := by
  obtain ⟨f, ⟨n, a⟩, data⟩ := c
  obtain ⟨b1, b2, h1, h2, rfl⟩ := cat_ok h
  unfold D.field
  cases a with
  | none =>
    obtain ⟨b3, b4, h3, h4, rfl⟩ := cat_ok h2
    exact next h1 trivial (next h3 trivial (next0 h4 trivial (lift (a := false) rfl (say (pure _)))))
  | some d =>
    obtain ⟨b3, b4, h3, h4, rfl⟩ := cat_ok h2
    obtain ⟨b5, b6, h5, h6, rfl⟩ := cat_ok h4
    exact next h1 trivial (next h3 trivial (next h5 trivial (lift (a := true) rfl (next0 h6 (hk d rfl) (say (pure _))))))

theorem layerSchema {e : Str × WireLayer} {bs} (h : schemaBytes e.2 = .ok bs)
    (hk : ∀ c ∈ e.2.cols, ∀ d, c.2.1.args = some d → (Obj.map d).KeysOk) :
    Prints (D.layerSchema e.1) bs (e.1, e.2.cols.map (fun c => (.str c.1, Spec.listedType c.2.1))) (Spec.schemaItems e) := by
  obtain ⟨b1, b2, h1, h2, rfl⟩ := cat_ok h
  unfold D.layerSchema Spec.schemaItems
  refine say (next h1 trivial (lift (a := (e.2.cols.length : Int)) rfl ?_))
  have := times (p := D.field) (v := fun (c : Str × TypeWire × List Obj) => (Obj.str c.1, Spec.listedType c.2.1)) h2
    (fun c hc b hb => field hb (hk c hc))
  exact this.done rfl

theorem column {c : Str × TypeWire × List Obj} {bs} (h : cat (pack (.bool false)) (pack (.arr c.2.2)) = .ok bs) (hk : (Obj.arr c.2.2).KeysOk) :
    Prints (D.column (.str c.1, Spec.listedType c.2.1)) bs () (Spec.columnItems c) := by
  obtain ⟨b1, b2, h1, h2, rfl⟩ := cat_ok h
  exact say (next h1 trivial (say (next0 h2 hk say1)))

end Prints

theorem layerSize_eq {l : WireLayer} {body : Bytes}
    (h : cat (pack (.int l.num)) (catL (l.cols.map (fun c => cat (pack (.bool false)) (pack (.arr c.2.2))))) = .ok body) :
    Spec.layerSize l = body.length := by
  obtain ⟨b1, b2, h1, h2, rfl⟩ := cat_ok h
  unfold Spec.layerSize
  rw [packSize_eq h1, List.length_append]
  congr 1
  clear h h1
  revert h2
  generalize l.cols = cs
  induction cs generalizing b2 with
  | nil => intro h; cases h; rfl
  | cons c cs ih =>
    intro h
    obtain ⟨b3, b4, h3, h4, rfl⟩ := cat_ok h
    obtain ⟨b5, b6, h5, h6, rfl⟩ := cat_ok h3
    simp only [List.map_cons, List.sum_cons, List.length_append]
    rw [ih b4 h4, packSize_eq h5, packSize_eq h6]

theorem toDict_other {β : Type} : ∀ (l : List (Str × β)) (d : Dict Str β) {k}, k ∉ l.map (·.1) → dget (l.foldl (fun d e => dset d e.1 e.2) d) k = dget d k
  | [], _, _, _ => rfl
  | e :: l, d, k, h => by
    simp only [List.map_cons, List.mem_cons, not_or] at h
    rw [List.foldl_cons, toDict_other l _ h.2, dget_dset, if_neg (fun he => h.1 he.symm)]

theorem toDict_get {β : Type} {l : List (Str × β)} (hn : (l.map (·.1)).Nodup) {k v} (h : (k, v) ∈ l) : dget (D.toDict l) k = some v := by
  unfold D.toDict
  generalize ([] : Dict Str β) = d
  induction l generalizing d with
  | nil => cases h
  | cons e l ih =>
    simp only [List.map_cons, List.nodup_cons] at hn
    rw [List.foldl_cons]
    rcases List.mem_cons.mp h with rfl | h
    · rw [toDict_other l _ hn.1, dget_dset, if_pos rfl]
    · exact ih hn.2 h _

theorem Prints.layerData {x : Wire} (hx : WireOk x) {e : Str × WireLayer} (he : e ∈ x.layers) {bs} (h : layerBytes e.2 = .ok bs) :
    Prints (D.layerData (D.toDict (x.layers.map (fun e => (e.1, e.2.cols.map (fun c => (Obj.str c.1, Spec.listedType c.2.1)))))) e.1) bs () (Spec.layerItems e) := by
  obtain ⟨body, len, h1, h2, rfl⟩ := sized_ok h
  rw [← layerSize_eq h1] at h2
  obtain ⟨b1, b2, h3, h4, rfl⟩ := cat_ok h1
  unfold D.layerData Spec.layerItems
  refine say (next h2 trivial (next h3 trivial (lift (a := (Spec.layerSize e.2 : Int)) rfl (say (lift (a := e.2.num) rfl (say ?_))))))
  rw [toDict_get (k := e.1) (v := e.2.cols.map (fun c => (Obj.str c.1, Spec.listedType c.2.1))) ?_ (List.mem_map.mpr ⟨e, he, rfl⟩)]
  · have := each (f := D.column) (k := fun (c : Str × TypeWire × List Obj) => (Obj.str c.1, Spec.listedType c.2.1)) (v := fun _ => ()) h4
      (fun c hc b hb => column hb (hx.cols e he c hc))
    exact this.done rfl
  · rw [List.map_map]
    exact hx.layers

theorem Prints.layersData {x : Wire} (hx : WireOk x) {bs} (h : catL (x.layers.map (fun e => layerBytes e.2)) = .ok bs) :
    Prints (D.each (D.layerData (D.toDict (x.layers.map (fun e => (e.1, e.2.cols.map (fun c => (Obj.str c.1, Spec.listedType c.2.1))))))) (dkeys x.layers)) bs
      (x.layers.map (fun _ => ())) (x.layers.flatMap Spec.layerItems) := by
  have hd := fun e he b => Prints.layerData (x := x) hx (e := e) he (bs := b)
  revert hd
  generalize D.toDict (x.layers.map (fun e => (e.1, e.2.cols.map (fun c => (Obj.str c.1, Spec.listedType c.2.1))))) = d
  intro hd
  exact Prints.each h hd

theorem debug_prints {x : Wire} (hx : WireOk x) {bs} (p : Parts x bs) : Prints (do
    D.say "-- Content --".toList []
    D.say "Magic: %s".toList [.r (.bin magic)]
    D.body) (p.propLen ++ (p.prop ++ (p.types ++ (p.schema ++ (p.textLen ++ (p.text ++ p.layers)))))) () (Spec.items x) := by
  have e1 : (dkeys x.layers).map Obj.str = x.layers.map (fun e => .str e.1) := by simp [dkeys, Function.comp_def]
  have e2 : textsObj x.texts = .map (x.texts.map (fun e => (e.1, .arr (e.2.map .str)))) := rfl
  have hl := p.hTextLen
  rw [← packSize_eq p.hText] at hl
  have hty := p.hTypes
  have hkt : (Obj.arr ((dkeys x.layers).map Obj.str)).KeysOk := keysOkL_str _
  rw [e1] at hty hkt
  have hpl := p.hPropLen
  rw [← packSize_eq p.hProp] at hpl
  unfold D.body Spec.items
  simp only [List.append_assoc, List.cons_append, List.nil_append]
  refine Prints.say (Prints.say (Prints.say (Prints.next hpl trivial (Prints.next p.hProp hx.props (Prints.say (Prints.say
    (Prints.next hty hkt ?_)))))))
  refine Prints.say (Prints.say (Prints.lift (a := dkeys x.layers) (by rw [← e1]; exact mapE_asStr _) ?_))
  refine (Prints.each (f := D.layerSchema) (k := Prod.fst) p.hSchema (fun e he b hb => Prints.layerSchema hb (hx.args e he))).bind ?_
  refine Prints.say (Prints.next hl trivial (Prints.lift (a := (Spec.packSize (textsObj x.texts) : Int)) rfl (Prints.say (Prints.next p.hText (keysOk_texts hx.texts) (Prints.lift (a := x.texts.map (fun e => (e.1, Obj.arr (e.2.map .str)))) rfl ?_)))))
  have ht : Prints (D.each (fun (e : Str × Obj) => D.say "%s = %s".toList [.s (.str e.1), .r e.2]) (x.texts.map (fun e => (e.1, .arr (e.2.map .str))))) []
      (x.texts.map (fun _ => ())) (x.texts.map (fun e => .line ⟨"%s = %s".toList, [.s (.str e.1), .r (.arr (e.2.map .str))]⟩)) := by
    have h0 : catL (x.texts.map (fun _ => (.ok [] : Except PyErr Bytes))) = .ok [] := by
      induction x.texts with
      | nil => rfl
      | cons e l ih => simp only [List.map_cons, catL, ih, cat, List.append_nil]
    have := Prints.each (f := fun (e : Str × Obj) => D.say "%s = %s".toList [.s (.str e.1), .r e.2]) (k := fun (e : Str × List Str) => (e.1, Obj.arr (e.2.map .str)))
      (g := fun _ => .ok []) (v := fun _ => ()) (ls := fun e => [.line ⟨"%s = %s".toList, [.s (.str e.1), .r (.arr (e.2.map .str))]⟩]) h0
      (fun e he b hb => by cases hb; exact Prints.say1)
    rwa [flatMap_single] at this
  refine Prints.bindN ht (Prints.say ?_)
  exact Prints.done (f := fun _ => Pure.pure ()) (Prints.layersData hx p.hLayers) rfl

theorem linesOf_flatMap {α : Type} (f : α → List Listed) (g : α → List PLine) (h : ∀ a, linesOf (f a) = g a) : ∀ l : List α, linesOf (l.flatMap f) = l.flatMap g
  | [] => rfl
  | a :: l => by rw [List.flatMap_cons, List.flatMap_cons, linesOf_append, h, linesOf_flatMap f g h l]

theorem linesOf_items (x : Wire) : linesOf (Spec.items x) = Spec.listing x := by
  have h1 : ∀ c, linesOf (Spec.fieldItems c) = [⟨"  - %s = %s".toList, [.s (.str c.1), .s (Spec.listedType c.2.1)]⟩] := by
    intro c
    unfold Spec.fieldItems
    rw [linesOf_append]
    cases c.2.1.args <;> rfl
  have h2 : ∀ e, linesOf (Spec.schemaItems e) = Spec.listedSchema e := by
    intro e
    unfold Spec.schemaItems Spec.listedSchema
    rw [linesOf_append, linesOf_flatMap _ _ h1, flatMap_single]
    rfl
  have h3 : ∀ e, linesOf (Spec.layerItems e) = Spec.listedLayer e := by
    intro e
    unfold Spec.layerItems Spec.listedLayer
    rw [linesOf_append, linesOf_flatMap _ Spec.listedColumn (fun _ => rfl)]
    rfl
  have h4 : ∀ l : List (Str × List Str), linesOf (l.map (fun e => .line ⟨"%s = %s".toList, [.s (.str e.1), .r (.arr (e.2.map .str))]⟩)) =
      l.map (fun e => ⟨"%s = %s".toList, [.s (.str e.1), .r (.arr (e.2.map .str))]⟩) := by
    intro l
    induction l with
    | nil => rfl
    | cons e l ih => simp only [List.map_cons, linesOf, ih]
  unfold Spec.items Spec.listing
  simp only [linesOf_append, linesOf_flatMap _ _ h2, linesOf_flatMap _ _ h3, h4, linesOf]

end Verif
