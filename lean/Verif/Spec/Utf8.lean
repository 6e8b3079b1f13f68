/-!
UTF-8 texts, by the encoding of characters in Lean's library (`String.utf8EncodeChar`).  Independent of the Go code.
-/

namespace Verif.Utf8

/-- The bytes of a text. -/
def encode (s : List Char) : List UInt8 := s.flatMap String.utf8EncodeChar

/-- A place at which no character starts. -/
def Broken (bs : List UInt8) : Prop := ∀ c : Char, ¬ String.utf8EncodeChar c <+: bs

/-- `Decodes bs cs`: `cs` are the characters of `bs`, with U+FFFD for each byte at which no character starts. -/
inductive Decodes : List UInt8 → List Char → Prop
  | nil : Decodes [] []
  | char {c : Char} {r : List UInt8} {cs : List Char} : Decodes r cs → Decodes (String.utf8EncodeChar c ++ r) (c :: cs)
  | broken {b : UInt8} {r : List UInt8} {cs : List Char} : Broken (b :: r) → Decodes r cs → Decodes (b :: r) (Char.ofNat 0xFFFD :: cs)

end Verif.Utf8
