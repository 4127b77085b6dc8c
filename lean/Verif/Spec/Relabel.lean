import Verif.Spec.Matching
/-! Giving patterns and parsers other labels, and exchanging parsers. -/
namespace Verif.Spec
open Verif

/-- The parser with another name. -/
def relabelParser (ρ : Option Bytes → Option Bytes) : Parser → Parser
  | .set p => .set { p with name := ρ p.name }
  | .int p => .int { p with name := ρ p.name }
  | .greedy p => .greedy { p with name := ρ p.name }

/-- The token with another parser. -/
def replaceToken (φ : Parser → Parser) : Token → Token
  | .literal l => .literal l
  | .parser a => .parser (φ a)

/-- `g` changes the names of the parsers of a pattern as `ρ` says, and otherwise at most what describes the pattern: its name, uuid, values, tags and
test messages. -/
def Relabels (ρ : Option Bytes → Option Bytes) (g : Pattern → Pattern) : Prop :=
  ∀ p, (g p).pattern = p.pattern.map (replaceToken (relabelParser ρ))

/-- Different parsers with which patterns of the list begin stay different. -/
def KeepsApart (φ : Parser → Parser) (ps : List Pattern) : Prop :=
  ∀ a b, (∃ p ∈ ps, p.pattern.head? = some (.parser a)) → (∃ p ∈ ps, p.pattern.head? = some (.parser b)) → φ a = φ b → a = b

/-- `r'` is `r` with other parsers and labels: neither is a match, or both are matches of the same pattern of the list with the same captures.  `M` says
what the captures of a pattern in a text are. -/
def SameBut (M : List Token → Bytes → List (Parser × Bytes) → Prop) (φ : Parser → Parser) (g : Pattern → Pattern) (ps : List Pattern)
    (x : Bytes) : Option MatchResult → Option MatchResult → Prop
  | none, none => True
  | some m, some m' => ∃ p ∈ ps, ∃ caps, M p.pattern x caps ∧ IsResult m p caps ∧ IsResult m' (g p) (caps.map fun c => (φ c.1, c.2))
  | _, _ => False

/-- The same for runs that may panic: if one does, so does the other. -/
def SameRun (M : List Token → Bytes → List (Parser × Bytes) → Prop) (φ : Parser → Parser) (g : Pattern → Pattern) (ps : List Pattern)
    (x : Bytes) : Except Panic (Option MatchResult) → Except Panic (Option MatchResult) → Prop
  | .ok r, .ok r' => SameBut M φ g ps x r r'
  | .error e, .error e' => e = e'
  | _, _ => False

end Verif.Spec
