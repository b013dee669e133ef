import Verif.Props.Text
import Verif.Props.Layer
import Verif.Props.Tokens
import Verif.Props.Translate
import Verif.Props.Dominant
import Verif.Props.Tar
set_option linter.unusedSimpArgs false

/-! Concrete cases of the claims about texts, layers, tokens, segments and tar files: each theorem is applied to
arguments that meet its hypotheses. -/

namespace Verif

/-- C01_text_slice and C01_text_slice_str -/
example : ∃ s : TextSpan, exText.getItem (.slice (some (-4)) (some 100) none) = .ok (.span s) ∧ s.start = 2 ∧ s.stop = 6 ∧
    s.str = "  cd".toList := by
  obtain ⟨s, h1, -, h2, h3, -, -⟩ := (C01_text_slice exText (some (-4)) (some 100) none (.inl rfl)).2 (by decide)
  exact ⟨s, h1, h2, h3, (C01_text_slice_str exText (some (-4)) (some 100) s h1).trans (by decide)⟩

/-- and the case that is refused, with a step of 1 -/
example : exText.getItem (.slice (some 3) (some 1) (some 1)) = .error .dataValidation :=
  (C01_text_slice exText (some 3) (some 1) (some 1) (.inr rfl)).1 (by decide)

/-- C05_covered_by, C05_intersected_by, C05_covered_order -/
example : ∀ p, Spec.posIn p 1 5 → Spec.posIn p 0 5 := (C05_covered_by exSpan ⟨exText, 0, 5⟩ (by decide)).mp (by decide)

example : ∃ p, Spec.posIn p 1 5 ∧ Spec.posIn p 4 6 := (C05_intersected_by exSpan ⟨exText, 4, 6⟩ (by decide) (by decide)).mp (by decide)

example : TextSpan.coveredBy ⟨exText, 2, 3⟩ ⟨exText, 0, 5⟩ = true :=
  C05_covered_order.2.1 ⟨exText, 2, 3⟩ exSpan ⟨exText, 0, 5⟩ (by decide) (by decide)

/-- C06_trim_partial: "b  c" has no white space at its start -/
example : ∃ r, TextSpan.trim exWs ⟨exText, 1, 4⟩ = .ok r ∧ r.str = Spec.trimRight exWs "b  ".toList := by
  obtain ⟨r, h1, -, -, -, -, -, h2, -⟩ := C06_trim_partial exWs ⟨exText, 1, 4⟩ (by decide)
  exact ⟨r, h1, h2.trans (if_neg (by decide))⟩

/-- C08_eq_hash_partial -/
example (H : Nat × Int × Int → Int) : H (TextSpan.hashKey ⟨exText, 1, 2⟩) = H (0, 1, 2) :=
  (C08_eq_hash_partial H).1 ⟨exText, 1, 2⟩ ⟨exText, 1, 2⟩ rfl (by decide)

/-- C09_span_to -/
example : ∃ s, TextSpan.spanTo ⟨exText, 0, 2⟩ ⟨exText, 4, 5⟩ = .ok s ∧ s.str = "ab  c".toList := by
  obtain ⟨-, s, h1, -, -, -, h2⟩ := C09_span_to ⟨exText, 0, 2⟩ ⟨exText, 4, 5⟩ (by decide) (by decide) rfl (by decide)
  exact ⟨s, h1, h2.trans (by decide)⟩

/-- C14_any_pair -/
example : ∃ pre mid post, [0, 2, 4] = pre ++ mid ++ post ∧
    ((mid.head? = some 4 ∧ mid.getLast? = some 2) ∨ (mid.head? = some 2 ∧ mid.getLast? = some 4)) :=
  C14_any_pair 0 _ Ex.holds0 4 2 (by decide) (by decide)

/-- C55_textspans: a window, and a token that does not occur -/
example : ∃ out, sequenceToTextspans (["dog", "on", "mat"].map String.toList) Ex.catText 4 (some 20) 1 = .ok out ∧ out.length = 3 ∧
    ∀ s ∈ out, s.stop ≤ 20 := by
  obtain ⟨out, h1, h2, h3, -, -⟩ := C55_textspans (["dog", "on", "mat"].map String.toList) Ex.catText 4 (some 20) 1 (by decide)
    (by intro e he; cases he; decide)
  exact ⟨out, h1, h2, fun s hs => (h3 s hs).2.2.2.2 20 rfl (by decide)⟩

set_option maxRecDepth 20000 in
/-- C54_raises_otherwise: the translation of the example succeeds, hence its intervals are disjoint -/
example : Spec.Disjoint [0, 1] (fun m => if m = 0 then 4 else 0) (fun m => if m = 0 then 6 else 2) :=
  (C54_raises_otherwise Ex.trW_translation (by decide +kernel)).1

/-- C53_dominant_right -/
example : ∃ sel : List (Seg String), ["a", "c", "e"] = sel.map (·.item) ∧ (∀ t ∈ sel, t ∈ Ex.segs5) ∧ sel.Pairwise Spec.LeftOf := by
  obtain ⟨sel, h1, h2, h3, -, -⟩ := C53_dominant_right Ex.segs5 (by decide) (by decide)
  exact ⟨sel, h1, h2, h3⟩

/-- C47_round_trip and C47_names_sorted -/
example : (Spec.tarNexts 4 ((TarWriter.new (some "x".toList)).run [.packed { raw := Ex.tiny 65, ref := none }, .other,
      .packed { raw := Ex.tiny 66, ref := none }]).members).map (fun x => x.map MDoc.raw) =
    [.ok (Ex.tiny 65), .ok (Ex.tiny 66), .error .stopIteration, .error .stopIteration] :=
  C47_round_trip (some "x".toList) _ (as := [.packed { raw := Ex.tiny 65, ref := none }, .other, .packed { raw := Ex.tiny 66, ref := none }])
    (by intro a ha; simp only [List.mem_cons, List.not_mem_nil, or_false] at ha; rcases ha with rfl | rfl | rfl
        · show Spec.ascii "DM_1" <+: Ex.tiny 65; decide
        · trivial
        · show Spec.ascii "DM_1" <+: Ex.tiny 66; decide) 2

example : docName 99 < docName 100 := C47_names_sorted (by decide) (by decide)

end Verif
