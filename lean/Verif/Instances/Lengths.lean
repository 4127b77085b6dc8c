import Verif.Instances.Basic
import Verif.Props.C136_Unbounded
/-! Concrete cases for C136. -/
namespace Verif
open Spec
namespace Lengths

def limited : Parser := .set { name := some b!"x", characterSet := b!"abc", minLength := some 2, maxLength := some 4 }

def sample : Pattern := Samples.pat 1 [.literal b!"id ", .parser limited, .literal b!";"]

/-- The messages of `id %{SET("abc",min_len=2,max_len=4):x};` have six, seven or eight bytes. -/
theorem sample_compiled : compile b!"id %{SET(\"abc\",min_len=2,max_len=4):x};" = .ok (.ok sample.pattern) := by decide +kernel

theorem sample_lengths (n : Nat) :
    (∃ text r, Ascii text ∧ text.length = n ∧ (SuffixTree.build Samples.sip [sample] >>= fun t => t.parse text) = .ok (some r)) ↔ 6 ≤ n ∧ n ≤ 8 := by
  rw [C136_exactly Samples.sip _ (by decide) sample sample_compiled (by intro g hm; simp [sample, Samples.pat, limited] at hm)]
  have h : shortest sample.pattern = 6 ∧ longest sample.pattern = some 8 := by decide +kernel
  rw [h.1, h.2]
  constructor
  · rintro ⟨-, h1, h2⟩; exact ⟨h1, h2 8 rfl⟩
  · rintro ⟨h1, h2⟩
    refine ⟨(C111_satisfiable Samples.sip _ (by decide) sample sample_compiled).mp
      ⟨b!"id abc;", { pattern := Samples.pat 1 [], values := [(b!"x", b!"abc")] }, by decide, by decide +kernel⟩, h1, ?_⟩
    rintro m ⟨⟩; exact h2

def pair : List Pattern := [sample, Samples.pat 2 [.literal b!"user ", .parser (Samples.int b!"n"), .literal b!"!"]]

/-- Nothing shorter than six bytes is answered, as the truncated message shows. -/
example (t : SuffixTree) (hb : SuffixTree.build Samples.sip pair = .ok t) (text : Bytes) (hx : Utf8 text) (h : text.length < 6) (r : Option MatchResult)
    (hr : t.parse text = .ok r) : r = none :=
  C136_trie_none Samples.sip pair (by intro p hp l hl; simp [pair, sample, Samples.pat, limited, Samples.int] at hp; rcases hp with rfl | rfl <;> simp at hl <;> rcases hl with rfl | rfl <;> exact ascii_utf8 (by decide))
    (by decide +kernel) t hb text hx (by
      intro p hp
      simp only [pair, List.mem_cons, List.not_mem_nil, or_false] at hp
      rcases hp with rfl | rfl
      · have : shortest sample.pattern = 6 := by decide +kernel
        omega
      · have : shortest (Samples.pat 2 [.literal b!"user ", .parser (Samples.int b!"n"), .literal b!"!"]).pattern = 7 := by decide +kernel
        omega) r hr

example : (SuffixTree.build Samples.sip pair >>= fun t => t.parse b!"id ab") = .ok none ∧
    (SuffixTree.build Samples.sip pair >>= fun t => t.parse b!"id abca;") =
      .ok (some { pattern := Samples.pat 1 [], values := [(b!"x", b!"abca")] }) := by decide +kernel

def open' : Pattern := Samples.pat 1 [.literal b!"id ", .parser limited, .parser (Samples.greedy b!"y" (some b!";")), .literal b!";"]

/-- A GREEDY in the middle: messages of `id %{SET("abc",min_len=2,max_len=4):x}%{GREEDY:y};` can be as long as one likes. -/
example (N : Nat) : ∃ text r, Utf8 text ∧ N ≤ text.length ∧ (SuffixTree.build Samples.sip [open'] >>= fun t => t.parse text) = .ok (some r) := by
  have hc : compile b!"id %{SET(\"abc\",min_len=2,max_len=4):x}%{GREEDY:y};" = .ok (.ok open'.pattern) := by decide +kernel
  exact C136_unbounded Samples.sip _ (by decide) open' hc ((C111_satisfiable Samples.sip _ (by decide) open' hc).mp
    ⟨b!"id abc!;", { pattern := Samples.pat 1 [], values := [(b!"x", b!"abc"), (b!"y", b!"!")] }, by decide, by decide +kernel⟩) (by decide +kernel) N

end Lengths
end Verif
