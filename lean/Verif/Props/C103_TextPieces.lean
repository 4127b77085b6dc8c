import Verif.Spec.TextPieces
import Verif.Props.C103_TextBetween
/-! C103: it does not matter in how many pieces the texts of a patterndb file come. -/
namespace Verif
open Spec Perl

namespace TextPieces

theorem add_texts (s : Str) (xs : List Xml) : Xml.textsOf (addText s xs) = s ++ Xml.textsOf xs := by
  unfold addText
  split
  · simp [Xml.textsOf, Xml.textOf]
  · split
    · simp [*]
    · simp [Xml.textsOf, Xml.textOf]

theorem add_named (name s : Str) (xs : List Xml) : Xml.namedIn name (addText s xs) = Xml.namedIn name xs := by
  unfold addText
  split
  · simp [Xml.namedIn, Xml.named]
  · split
    · rfl
    · simp [Xml.namedIn, Xml.named]

theorem last_text (name s : Str) (xs : List Xml) : lastChild name (.text s :: xs) = lastChild name xs := by
  rw [lastChild]
  cases h : lastChild name xs with
  | some r => rfl
  | none => simp [Xml.isNamed]

theorem add_last (name s : Str) (xs : List Xml) : lastChild name (addText s xs) = lastChild name xs := by
  unfold addText
  split
  · rw [last_text, last_text]
  · split
    · rfl
    · rw [last_text]

theorem add_read (we : Bool) (anc : Ancestors) (s : Str) (xs : List Xml) (σ : PdbData) : readXmls we anc (addText s xs) σ = readXmls we anc xs σ := by
  have ht : ∀ (t : Str) (ys : List Xml), readXmls we anc (.text t :: ys) σ = readXmls we anc ys σ := by
    intro t ys; rw [readXmls, readXml]; rfl
  unfold addText
  split
  · rw [ht, ht]
  · split
    · rfl
    · rw [ht]

mutual
theorem text_joined : ∀ x : Xml, (joined x).textOf = x.textOf
  | .text s => by rw [joined]
  | .elem n a cs => by rw [joined, Xml.textOf, Xml.textOf, texts_joined cs]
theorem texts_joined : ∀ xs : List Xml, Xml.textsOf (joinedIn xs) = Xml.textsOf xs
  | [] => by rw [joinedIn]
  | .text s :: xs => by rw [joinedIn, add_texts, texts_joined xs, Xml.textsOf, Xml.textOf]
  | .elem n a cs :: xs => by rw [joinedIn, Xml.textsOf, Xml.textsOf, texts_joined xs, text_joined (.elem n a cs)]
end

mutual
theorem named_joined (name : Str) : ∀ x : Xml, (joined x).named name = (x.named name).map joined
  | .text s => by rw [joined]; simp [Xml.named]
  | .elem n a cs => by
    rw [joined, Xml.named, Xml.named, namedIn_joined name cs]
    split
    · rw [List.map_cons, joined]
    · rfl
theorem namedIn_joined (name : Str) : ∀ xs : List Xml, Xml.namedIn name (joinedIn xs) = (Xml.namedIn name xs).map joined
  | [] => by rw [joinedIn]; simp [Xml.namedIn]
  | .text s :: xs => by rw [joinedIn, add_named, namedIn_joined name xs, Xml.namedIn]; simp [Xml.named]
  | .elem n a cs :: xs => by rw [joinedIn, Xml.namedIn, Xml.namedIn, namedIn_joined name xs, named_joined name (.elem n a cs), List.map_append]
end

theorem att_joined (name : Str) (x : Xml) : (joined x).att name = x.att name := by cases x <;> rw [joined] <;> rfl
theorem children_joined (x : Xml) : (joined x).children = joinedIn x.children := by
  cases x <;> rw [joined]
  · simp [Xml.children, joinedIn]
  · rfl

theorem last_joined (name : Str) (xs : List Xml) : lastChild name (joinedIn xs) = (lastChild name xs).map fun r => (joined r.1, joinedIn r.2) := by
  induction xs with
  | nil => rw [joinedIn]; rfl
  | cons x xs ih =>
    cases x with
    | text s => rw [joinedIn, add_last, ih, last_text]
    | elem n a cs =>
      rw [joinedIn, lastChild, ih, lastChild]
      cases h : lastChild name xs with
      | some r => rfl
      | none =>
        have : (joined (.elem n a cs)).isNamed name = (Xml.elem n a cs).isNamed name := by rw [joined]; rfl
        simp only [Option.map_none, this]
        split <;> rfl

theorem test_values (cs : List Xml) : testValues (joinedIn cs) = testValues cs := by
  rw [testValues, last_joined, testValues]
  cases h : lastChild "test_values".toList cs with
  | none => rfl
  | some r =>
    obtain ⟨x, following⟩ := r
    have happ : ∀ (xs ys : List Xml), Xml.namedIn "test_value".toList (xs ++ ys) = Xml.namedIn "test_value".toList xs ++ Xml.namedIn "test_value".toList ys := by
      intro xs ys
      induction xs with
      | nil => simp [Xml.namedIn]
      | cons x xs ih => rw [List.cons_append, Xml.namedIn, ih, Xml.namedIn, List.append_assoc]
    simp only [Option.map_some]
    rw [children_joined, happ, happ, namedIn_joined, namedIn_joined, ← List.map_append, List.foldl_map]
    simp only [att_joined, text_joined]

theorem example_handler (we : Bool) (anc : Ancestors) (cs : List Xml) (σ : PdbData) :
    exampleHandler we anc (joinedIn cs) σ = exampleHandler we anc cs σ := by
  rw [exampleHandler, exampleHandler, test_values, last_joined]
  cases h : lastChild "test_message".toList cs with
  | none => rfl
  | some r =>
    obtain ⟨x, following⟩ := r
    simp only [Option.map_some, bind, Option.bind, att_joined, text_joined]

theorem action_handler (anc : Ancestors) (cs : List Xml) (σ : PdbData) : actionHandler anc (joinedIn cs) σ = actionHandler anc cs σ := by
  rw [actionHandler, actionHandler, namedIn_joined]
  cases Xml.namedIn "message".toList cs <;> rfl

theorem handle_joined (we : Bool) (anc : Ancestors) (name : Str) (atts : List (Str × Str)) (cs : List Xml) (σ : PdbData) :
    handle we anc name atts (joinedIn cs) σ = handle we anc name atts cs σ := by
  simp only [handle, example_handler, action_handler, texts_joined]

mutual
theorem read_joined (we : Bool) : ∀ (x : Xml) (anc : Ancestors) (σ : PdbData), readXml we anc (joined x) σ = readXml we anc x σ
  | .text s, anc, σ => by rw [joined]
  | .elem n a cs, anc, σ => by
    rw [joined, readXml, readXml, reads_joined we cs]
    congr 1
    funext τ
    exact handle_joined we anc n a cs τ
theorem reads_joined (we : Bool) : ∀ (xs : List Xml) (anc : Ancestors) (σ : PdbData), readXmls we anc (joinedIn xs) σ = readXmls we anc xs σ
  | [], anc, σ => by rw [joinedIn]
  | .text s :: xs, anc, σ => by rw [joinedIn, add_read, reads_joined we xs, readXmls, readXml]; rfl
  | .elem n a cs :: xs, anc, σ => by
    rw [joinedIn, readXmls, readXmls, read_joined we (.elem n a cs)]
    congr 1
    funext τ
    exact reads_joined we xs anc τ
end

end TextPieces

/-- C103: the script reads the same, in however many pieces the texts come. -/
theorem C103_text_pieces (withExamples : Bool) (x : Xml) (anc : Ancestors) (σ : PdbData) :
    readXml withExamples anc (joined x) σ = readXml withExamples anc x σ := TextPieces.read_joined withExamples x anc σ

/-- C103: a file that is, but for text between the elements and for the pieces in which the texts come, that of a patterndb is read like it. -/
theorem C103_read_pieces (withExamples : Bool) (db : PatternDb) (x : Xml) (h : withoutText (joined x) = withoutText (joined (patternDbXml db))) :
    ∃ σ, readXml withExamples [] x ⟨[], []⟩ = some σ ∧ ReadAs db withExamples σ.toRules ∧ ∀ key, σ.programs key = db.programsOf key := by
  rw [← C103_text_pieces, ← C103_text_between, h, C103_text_between, C103_text_pieces]
  exact C103_read withExamples db

/-- a file with a CDATA section in the name of the program, with an empty pattern, and with line feeds between the elements -/
example : withoutText (joined (.elem "patterndb".toList [] [.text "\n".toList, .elem "ruleset".toList [("name".toList, "ssh".toList), ("id".toList, "1".toList)]
      [.text "\n  ".toList, .elem "pattern".toList [] [.text "ss".toList, .text "hd".toList], .elem "pattern".toList [] [], .text "\n".toList,
       .elem "rules".toList [] [.text " ".toList]], .text "\n".toList])) =
    withoutText (joined (patternDbXml ⟨[], [⟨some "ssh".toList, "1".toList, none, false, ["sshd".toList, []], []⟩]⟩)) := by
  simp [descriptionXml, rulesetAtts, patternDbXml, rulesetXml, wrapXml, nodeXml, leafXml, withoutText, elementsOnly, textElements, joined, joinedIn, addText]

end Verif
