import Verif.Rust.SipHash
import Verif.Model.Trie
import Verif.Spec.Matching
/-! Concrete patterns used to show that the hypotheses of the theorems can be met. -/
namespace Verif.Samples

/-- The hash function of the program (`SipHasher::new()`). -/
def sip (b : Bytes) : UInt64 := Rust.sipHasher b

def pat (uuid : Nat) (toks : List Token) : Pattern := { Pattern.withUuid uuid with pattern := toks }

def int (name : Bytes) : Parser := .int (intDelegate (some name))
def greedy (name : Bytes) (e : Option Bytes) : Parser := .greedy { name := some name, endString := e }
def set (name set : Bytes) : Parser := .set (SetParser.new (some name) set)

end Verif.Samples
