import Verif.Model.Description
/-! C108, C109: descriptions of errors. -/
namespace Verif

/-- The errors that are made by this library, not passed on from another one. -/
def OwnError : BuildError → Prop
  | .testMessage _ | .unsupportedFileExtension | .notUtf8FileName => True
  | _ => False

/-- The two errors are of the same kind. -/
def SameKind : BuildError → BuildError → Prop
  | .testMessage (.valueNotMatch ..), .testMessage (.valueNotMatch ..) => True
  | .testMessage (.keyNotFound ..), .testMessage (.keyNotFound ..) => True
  | .testMessage (.testMessageDoesntMatch ..), .testMessage (.testMessageDoesntMatch ..) => True
  | .testMessage (.matchedToOtherPattern ..), .testMessage (.matchedToOtherPattern ..) => True
  | .testMessage (.unexpectedTags ..), .testMessage (.unexpectedTags ..) => True
  | .unsupportedFileExtension, .unsupportedFileExtension => True
  | .notUtf8FileName, .notUtf8FileName => True
  | _, _ => False

/-- C108: the description of an error of this library tells its kind, and nothing else. -/
theorem C108_kind (F : ErrorFacts) (e e' : BuildError) (h : OwnError e) (h' : OwnError e') : e.description F = e'.description F ↔ SameKind e e' := by
  have ne : ∀ {a b : Bytes}, decide (a = b) = false → (a = b ↔ False) := fun h => iff_false_intro (of_decide_eq_false h)
  cases e with
  | testMessage a =>
    cases e' with
    | testMessage b =>
      cases a <;> cases b <;> first
        | exact iff_of_true rfl trivial
        | exact ne rfl
    | unsupportedFileExtension => cases a <;> exact ne rfl
    | notUtf8FileName => cases a <;> exact ne rfl
    | _ => cases h'
  | unsupportedFileExtension =>
    cases e' with
    | testMessage b => cases b <;> exact ne rfl
    | unsupportedFileExtension => exact iff_of_true rfl trivial
    | notUtf8FileName => exact ne rfl
    | _ => cases h'
  | notUtf8FileName =>
    cases e' with
    | testMessage b => cases b <;> exact ne rfl
    | unsupportedFileExtension => exact ne rfl
    | notUtf8FileName => exact iff_of_true rfl trivial
    | _ => cases h'
  | _ => cases h

/-- C109 (partial): the displayed text of an error of this library begins with its description, unless a test message did not match anything or the file
extension is not supported. -/
theorem C109_text_partial (L : ErrorTexts) (F : ErrorFacts) (e : BuildError) (h : OwnError e)
    (h1 : ∀ uuid m, e ≠ .testMessage (.testMessageDoesntMatch uuid m)) (h2 : e ≠ .unsupportedFileExtension) : e.description F <+: e.display L := by
  cases e with
  | testMessage a =>
    cases a with
    | testMessageDoesntMatch u m => exact absurd rfl (h1 u m)
    | _ =>
      simp only [BuildError.description, BuildError.display, TestError.description, TestError.display, List.append_assoc]
      exact ⟨_, rfl⟩
  | unsupportedFileExtension => exact absurd rfl h2
  | notUtf8FileName => exact List.prefix_refl _
  | _ => cases h

/-- C109 for the errors of other libraries: they are passed on with the description and the text they have there, so that the text begins with the
description iff it does so in the library the error comes from. -/
theorem C109_passed_on (L : ErrorTexts) (F : ErrorFacts) :
    (∀ e, ((BuildError.io e).description F, (BuildError.io e).display L) = (F.ioDescription e, L.io e)) ∧
    (∀ e, ((BuildError.deserJson e).description F, (BuildError.deserJson e).display L) = (F.jsonDescription e, L.json e)) ∧
    (∀ e, ((BuildError.deserYaml e).description F, (BuildError.deserYaml e).display L) = (F.yamlDescription e, L.yaml e)) :=
  ⟨fun _ => rfl, fun _ => rfl, fun _ => rfl⟩

/-- C109 (refuted): for these two errors, whatever their details, it does not. -/
theorem C109_refuted (L : ErrorTexts) (F : ErrorFacts) :
    (∀ uuid m, ¬ (BuildError.testMessage (.testMessageDoesntMatch uuid m)).description F <+: (BuildError.testMessage (.testMessageDoesntMatch uuid m)).display L) ∧
    ¬ BuildError.unsupportedFileExtension.description F <+: BuildError.unsupportedFileExtension.display L := by
  constructor
  · rintro uuid m ⟨t, h⟩
    simp only [BuildError.description, BuildError.display, TestError.description, TestError.display, List.append_assoc] at h
    have := congrArg (List.take 16) h
    simp at this
  · exact of_decide_eq_false (p := b!"The given file extension is not supported" <+: b!"The given file extension is not suppoted") (by decide)

example : OwnError (.testMessage (.keyNotFound 1 b!"k")) ∧ OwnError .notUtf8FileName := ⟨trivial, trivial⟩

end Verif
