import Verif.Rust.Std
/-! SipHash-2-4 as in the standard library: `std::hash::SipHasher` is used by `hash_os` (src/parsers/set.rs:103,
src/parsers/int.rs:62, src/parsers/greedy.rs:45), always with the keys 0 and 0 (`SipHasher::new()`).

No theorem rests on this definition: they hold for every hash function. It is used in the witnesses and in the examples, so
that these are about the program with its own hash function. -/
namespace Verif.Rust

/-- The four words of the internal state. -/
structure SipState where
  v0 : UInt64
  v1 : UInt64
  v2 : UInt64
  v3 : UInt64

/-- Rotation to the left by `n` bits. -/
def rotl (x : UInt64) (n : UInt64) : UInt64 := (x <<< n) ||| (x >>> (64 - n))

/-- One SipRound. -/
def SipState.round (s : SipState) : SipState :=
  let v0 := s.v0 + s.v1
  let v1 := rotl s.v1 13 ^^^ v0
  let v0 := rotl v0 32
  let v2 := s.v2 + s.v3
  let v3 := rotl s.v3 16 ^^^ v2
  let v0 := v0 + v3
  let v3 := rotl v3 21 ^^^ v0
  let v2 := v2 + v1
  let v1 := rotl v1 17 ^^^ v2
  let v2 := rotl v2 32
  ⟨v0, v1, v2, v3⟩

/-- The bytes read as a little-endian number. -/
def leWord (b : Bytes) : UInt64 := b.foldr (fun x w => (w <<< 8) ||| x.toUInt64) 0

/-- A word is mixed in with two rounds (the 2 of SipHash-2-4). -/
def SipState.word (s : SipState) (m : UInt64) : SipState :=
  let s := { s with v3 := s.v3 ^^^ m }
  let s := s.round.round
  { s with v0 := s.v0 ^^^ m }

/-- The full 8-byte words are mixed in one by one, the rest (less than 8 bytes) is left over. -/
def SipState.words (s : SipState) : Bytes → SipState × Bytes
  | a :: b :: c :: d :: e :: f :: g :: h :: rest => (s.word (leWord [a, b, c, d, e, f, g, h])).words rest
  | tail => (s, tail)

/-- SipHash-2-4 with the key `(k0, k1)`: the last word has the left over bytes and the length modulo 256, and four rounds
(the 4 of SipHash-2-4) finish. -/
def sipHash24 (k0 k1 : UInt64) (b : Bytes) : UInt64 :=
  let s : SipState := ⟨k0 ^^^ 0x736f6d6570736575, k1 ^^^ 0x646f72616e646f6d, k0 ^^^ 0x6c7967656e657261, k1 ^^^ 0x7465646279746573⟩
  let (s, tail) := s.words b
  let s := s.word ((UInt64.ofNat b.length <<< 56) ||| leWord tail)
  let s := { s with v2 := s.v2 ^^^ 0xff }
  let s := s.round.round.round.round
  s.v0 ^^^ s.v1 ^^^ s.v2 ^^^ s.v3

/-- `SipHasher::new()`, the bytes written to it, then `finish()`. -/
def sipHasher (b : Bytes) : UInt64 := sipHash24 0 0 b

/-! The test vectors of the reference implementation, for the key 00 01 .. 0f and the inputs 00 01 .. of length 0, 1, 7, 8, 15. -/
example : [0, 1, 7, 8, 15].map (fun n => sipHash24 0x0706050403020100 0x0f0e0d0c0b0a0908 ((List.range n).map UInt8.ofNat)) =
    [0x726fdb47dd0e0e31, 0x74f839c593dc67fd, 0xab0200f58b01d137, 0x93f5f5799a932462, 0xa129ca6149be45e5] := by decide +kernel

end Verif.Rust
