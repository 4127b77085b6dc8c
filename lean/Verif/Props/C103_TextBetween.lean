import Verif.Spec.TextBetween
import Verif.Props.C103_PatternDbXml
/-! C103: the text between the elements of a patterndb file does not matter. -/
namespace Verif
open Spec Perl

namespace TextBetween

theorem elements_text (s : Str) (xs : List Xml) : elementsOnly (.text s :: xs) = elementsOnly xs := by rw [elementsOnly]
theorem elements_elem (n : Str) (a : List (Str × Str)) (cs xs : List Xml) :
    elementsOnly (.elem n a cs :: xs) = withoutText (.elem n a cs) :: elementsOnly xs := by rw [elementsOnly]

mutual
theorem named_kept {name : Str} (h : name ∈ textElements) : ∀ x : Xml, (withoutText x).named name = x.named name
  | .text s => by rw [withoutText]
  | .elem n a cs => by
    rw [withoutText]
    by_cases hn : n ∈ textElements
    · rw [if_pos hn]
    · have hne : n ≠ name := fun e => hn (e ▸ h)
      rw [if_neg hn, Xml.named, Xml.named, if_neg hne, if_neg hne, namedIn_kept h cs]
theorem namedIn_kept {name : Str} (h : name ∈ textElements) : ∀ xs : List Xml, Xml.namedIn name (elementsOnly xs) = Xml.namedIn name xs
  | [] => by rw [elementsOnly]
  | .text s :: xs => by rw [elementsOnly, Xml.namedIn, namedIn_kept h xs]; simp [Xml.named]
  | .elem n a cs :: xs => by rw [elementsOnly, Xml.namedIn, Xml.namedIn, namedIn_kept h xs, named_kept h (.elem n a cs)]
end

mutual
theorem named_none (name : Str) : ∀ x : Xml, (withoutText x).named name = [] ↔ x.named name = []
  | .text s => by rw [withoutText]
  | .elem n a cs => by
    rw [withoutText]
    split
    · rfl
    · rw [Xml.named, Xml.named]
      split
      · simp
      · exact namedIn_none name cs
theorem namedIn_none (name : Str) : ∀ xs : List Xml, Xml.namedIn name (elementsOnly xs) = [] ↔ Xml.namedIn name xs = []
  | [] => by rw [elementsOnly]
  | .text s :: xs => by rw [elementsOnly, Xml.namedIn, namedIn_none name xs]; simp [Xml.named]
  | .elem n a cs :: xs => by
    rw [elementsOnly, Xml.namedIn, Xml.namedIn, List.append_eq_nil_iff, List.append_eq_nil_iff, namedIn_none name xs, named_none name (.elem n a cs)]
end

theorem last_child (name : Str) (xs : List Xml) : lastChild name (elementsOnly xs) = (lastChild name xs).map fun r => (withoutText r.1, elementsOnly r.2) := by
  induction xs with
  | nil => rw [elementsOnly]; rfl
  | cons x xs ih =>
    cases x with
    | text s =>
      rw [elements_text, ih, lastChild]
      cases h : lastChild name xs with
      | some r => rfl
      | none => simp [Xml.isNamed]
    | elem n a cs =>
      rw [elements_elem, lastChild, ih, lastChild]
      cases h : lastChild name xs with
      | some r => rfl
      | none =>
        have : (withoutText (.elem n a cs)).isNamed name = (Xml.elem n a cs).isNamed name := by rw [withoutText]; rfl
        simp only [Option.map_none, this]
        split <;> rfl

theorem last_named {name : Str} {xs : List Xml} {r : Xml × List Xml} (h : lastChild name xs = some r) : ∃ a cs, r.1 = .elem name a cs := by
  induction xs with
  | nil => cases h
  | cons x xs ih =>
    rw [lastChild] at h
    cases hl : lastChild name xs with
    | some r' => rw [hl] at h; injection h with h; subst h; exact ih hl
    | none =>
      rw [hl] at h
      simp only at h
      split at h
      · rename_i hn
        injection h with h
        subst h
        cases x with
        | text s => simp [Xml.isNamed] at hn
        | elem n a cs => simp only [Xml.isNamed, decide_eq_true_eq] at hn; exact ⟨a, cs, by rw [hn]⟩
      · cases h

theorem test_values (cs : List Xml) : testValues (elementsOnly cs) = testValues cs := by
  rw [testValues, last_child, testValues]
  cases h : lastChild "test_values".toList cs with
  | none => rfl
  | some r =>
    obtain ⟨a, ds, hr⟩ := last_named h
    obtain ⟨x, following⟩ := r
    simp only at hr
    subst hr
    have happ : ∀ (xs ys : List Xml), Xml.namedIn "test_value".toList (xs ++ ys) = Xml.namedIn "test_value".toList xs ++ Xml.namedIn "test_value".toList ys := by
      intro xs ys
      induction xs with
      | nil => simp [Xml.namedIn]
      | cons x xs ih => rw [List.cons_append, Xml.namedIn, ih, Xml.namedIn, List.append_assoc]
    have hk : "test_value".toList ∈ textElements := by decide
    have hn : "test_values".toList ∉ textElements := by decide
    simp only [Option.map_some]
    rw [withoutText, if_neg hn, Xml.children, Xml.children, happ, happ, namedIn_kept hk, namedIn_kept hk]

theorem example_handler (we : Bool) (anc : Ancestors) (cs : List Xml) (σ : PdbData) :
    exampleHandler we anc (elementsOnly cs) σ = exampleHandler we anc cs σ := by
  rw [exampleHandler, exampleHandler, test_values, last_child]
  cases h : lastChild "test_message".toList cs with
  | none => rfl
  | some r =>
    obtain ⟨a, ds, hr⟩ := last_named h
    obtain ⟨x, following⟩ := r
    simp only at hr
    subst hr
    have hk : "test_message".toList ∈ textElements := by decide
    simp only [Option.map_some]
    rw [withoutText, if_pos hk]
    rfl

theorem action_handler (anc : Ancestors) (cs : List Xml) (σ : PdbData) : actionHandler anc (elementsOnly cs) σ = actionHandler anc cs σ := by
  rw [actionHandler, actionHandler]
  have h := namedIn_none "message".toList cs
  cases h1 : Xml.namedIn "message".toList cs with
  | nil => rw [h.mpr h1]
  | cons y ys =>
    cases h2 : Xml.namedIn "message".toList (elementsOnly cs) with
    | nil => rw [h.mp h2] at h1; cases h1
    | cons z zs => rfl

theorem handle_elements (we : Bool) (anc : Ancestors) (name : Str) (atts : List (Str × Str)) (cs : List Xml) (σ : PdbData) (h : name ∉ textElements) :
    handle we anc name atts (elementsOnly cs) σ = handle we anc name atts cs σ := by
  have h1 : name ≠ "pattern".toList := fun e => h (e ▸ by decide)
  have h2 : name ≠ "tag".toList := fun e => h (e ▸ by decide)
  have h3 : name ≠ "value".toList := fun e => h (e ▸ by decide)
  simp only [handle, example_handler, action_handler, h1, h2, h3, decide_false, Bool.false_and, Bool.false_eq_true, if_false]

mutual
theorem read_without (we : Bool) : ∀ (x : Xml) (anc : Ancestors) (σ : PdbData), readXml we anc (withoutText x) σ = readXml we anc x σ
  | .text s, anc, σ => by rw [withoutText]
  | .elem n a cs, anc, σ => by
    rw [withoutText]
    split
    · rfl
    · rename_i h
      rw [readXml, readXml, reads_without we cs]
      congr 1
      funext τ
      exact handle_elements we anc n a cs τ h
theorem reads_without (we : Bool) : ∀ (xs : List Xml) (anc : Ancestors) (σ : PdbData), readXmls we anc (elementsOnly xs) σ = readXmls we anc xs σ
  | [], anc, σ => by rw [elementsOnly]
  | .text s :: xs, anc, σ => by rw [elementsOnly, reads_without we xs, readXmls, readXml]; rfl
  | .elem n a cs :: xs, anc, σ => by
    rw [elementsOnly, readXmls, readXmls, read_without we (.elem n a cs)]
    congr 1
    funext τ
    exact reads_without we xs anc τ
end

end TextBetween

/-- C103: whatever text there is between the elements, the script reads the same. -/
theorem C103_text_between (withExamples : Bool) (x : Xml) (anc : Ancestors) (σ : PdbData) :
    readXml withExamples anc (withoutText x) σ = readXml withExamples anc x σ := TextBetween.read_without withExamples x anc σ

/-- C103: a file that is, but for text between the elements, that of a patterndb is read like it. -/
theorem C103_read_with_text (withExamples : Bool) (db : PatternDb) (x : Xml) (h : withoutText x = withoutText (patternDbXml db)) :
    ∃ σ, readXml withExamples [] x ⟨[], []⟩ = some σ ∧ ReadAs db withExamples σ.toRules ∧ ∀ key, σ.programs key = db.programsOf key := by
  rw [← C103_text_between, h, C103_text_between]
  exact C103_read withExamples db

/-- a file with line feeds between the elements, and the patterndb it is read as -/
example : withoutText (.elem "patterndb".toList [] [.text "\n".toList, .elem "ruleset".toList [("name".toList, "ssh".toList), ("id".toList, "1".toList)]
      [.text "\n  ".toList, .elem "pattern".toList [] [.text "sshd".toList], .text "\n".toList, .elem "rules".toList [] [.text " ".toList]], .text "\n".toList]) =
    withoutText (patternDbXml ⟨[], [⟨some "ssh".toList, "1".toList, none, false, ["sshd".toList], []⟩]⟩) := by
  simp [descriptionXml, rulesetAtts, patternDbXml, rulesetXml, wrapXml, nodeXml, leafXml, withoutText, elementsOnly, textElements]

end Verif
