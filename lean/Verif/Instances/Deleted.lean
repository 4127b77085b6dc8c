import Verif.Instances.Kept
import Verif.Props.C128_Deleted
import Verif.Props.C129_Cause
/-! The theorems about deleted patterns, applied to concrete cases. -/
namespace Verif.Instances
open Verif.Spec Samples

/-- `néa`, `%{GREEDY:g}!`, `né%{INT:i}` and `%{INT:j}`: the third one is lost. -/
def beforeLost : List Pattern := [pat 1 [.literal b!"néa"], pat 2 [.parser (greedy b!"g" (some b!"!")), .literal b!"!"]]
def lost : Pattern := pat 3 [.literal b!"né", .parser (int b!"i")]
def afterLost : List Pattern := [pat 4 [.parser (int b!"j")]]
def afterLed : List Pattern := [pat 4 [.parser (int b!"j")], pat 5 [.literal b!"né"]]

theorem withLost_proper : Proper sip (beforeLost ++ lost :: afterLost) := properOf ["néa", "né", "!"] (by decide +kernel) (by decide +kernel)
theorem withLed_proper : Proper sip (beforeLost ++ lost :: afterLed) := properOf ["néa", "né", "!"] (by decide +kernel) (by decide +kernel)
theorem lost_goesOn : GoesOn lost b!"né" := ⟨_, by simp, rfl⟩
theorem lost_late : LongerLed beforeLost b!"né" := ⟨b!"néa", ⟨_, List.mem_cons_self .., _, rfl⟩, by decide, by decide⟩
theorem beforeLost_stops : ∀ q ∈ beforeLost, ∀ l', l' <+: b!"né" → ¬ GoesOn q l' := by
  rintro q hq l' _ ⟨rest, h, e⟩
  simp only [beforeLost, List.mem_cons, List.not_mem_nil, or_false] at hq
  rcases hq with rfl | rfl
  · simp only [pat, List.cons.injEq] at e; exact h e.2.symm
  · simp [pat] at e

/-- The text `néb!` is answered without the lost pattern only. -/
example := C128_lost_partial sip beforeLost afterLost lost withLost_proper b!"né" lost_goesOn beforeLost_stops lost_late b!"néb!" u8!"néb!" none
  (some ⟨pat 2 [], [(b!"g", b!"néb")]⟩) (by decide +kernel) (by decide +kernel)
example := C128_lost_partial sip beforeLost afterLost lost withLost_proper b!"né" lost_goesOn beforeLost_stops lost_late b!"77" u8!"77"
  (some ⟨pat 4 [], [(b!"j", b!"77")]⟩) (some ⟨pat 4 [], [(b!"j", b!"77")]⟩) (by decide +kernel) (by decide +kernel)
example := C128_lost_same_partial sip beforeLost afterLed lost withLed_proper b!"né" lost_goesOn beforeLost_stops lost_late ⟨pat 5 [.literal b!"né"], by decide, [], rfl⟩ b!"néb!" u8!"néb!"
  none none (by decide +kernel) (by decide +kernel)
/-- `%{INT:j}` is deleted from the list; the text is one of `%{GREEDY:g}!`. -/
example := C128_parser_led_partial sip (beforeLost ++ [lost]) [] (pat 4 [.parser (int b!"j")]) withLost_proper (int b!"j") [] rfl (by decide) b!"x!" u8!"x!"
  (by
    rintro ⟨caps, h⟩
    simp only [pat] at h
    generalize hx : (b!"x!" : Bytes) = x at h
    cases h with
    | parser _ _ v y _ h1 h2 =>
      have hy : y = [] := (strict_nil_inv h2).1
      subst hy
      rw [List.append_nil] at hx h1
      subst hx
      exact absurd (h1.inSet _ (List.mem_cons_self ..)) (by decide))
  (some ⟨pat 2 [], [(b!"g", b!"x")]⟩) (some ⟨pat 2 [], [(b!"g", b!"x")]⟩) (by decide +kernel) (by decide +kernel)

/-- `né%{INT:i}` is deleted, as `né%{GREEDY:g}` comes later. -/
example := C128_suffix_replaced_partial sip beforeLost [pat 6 [.literal b!"né", .parser (greedy b!"g" none)]] lost (pat 6 [.literal b!"né", .parser (greedy b!"g" none)])
  (utf8LitsOf ["néa", "né", "!"] (by decide +kernel)) (by decide +kernel) b!"né" [.parser (int b!"i")] [.parser (greedy b!"g" none)] rfl rfl (by decide) (by decide) b!"né5" u8!"né5"
  (some ⟨pat 6 [], [(b!"g", b!"5")]⟩) (some ⟨pat 6 [], [(b!"g", b!"5")]⟩) (by decide +kernel) (by decide +kernel)
example := C128_suffix_parser_led_partial sip (beforeLost ++ [lost]) [] (pat 4 [.parser (int b!"j")]) withLost_proper.utf8 withLost_proper.hashes (int b!"j") [] rfl
  ⟨b!"néa", ⟨_, List.mem_cons_self .., _, rfl⟩⟩ b!"né5" u8!"né5" (some ⟨pat 3 [], [(b!"i", b!"5")]⟩) (some ⟨pat 3 [], [(b!"i", b!"5")]⟩) (by decide +kernel) (by decide +kernel)

end Verif.Instances
