/-!
Base64 of binary scalars: RFC 4648, section 4, and https://yaml.org/type/binary.html (white space and line breaks inside
the text are ignored).
-/

namespace Verif.Base64

abbrev Text := List Char

/-- The alphabet: the values of the 64 characters. -/
def alphabet : Text := "ABCDEFGHIJKLMNOPQRSTUVWXYZabcdefghijklmnopqrstuvwxyz0123456789+/".toList

/-- The character has this value. -/
def Val (c : Char) (n : Nat) : Prop := alphabet[n]? = some c

/-- A text without white space which decodes to bytes.  The spare bits of a last group which is not full are ignored. -/
inductive Decodes : Text → List Nat → Prop
  | nil : Decodes [] []
  | four {a b c d : Char} {i j k l : Nat} {s : Text} {bs : List Nat} (ha : Val a i) (hb : Val b j) (hc : Val c k)
      (hd : Val d l) (h : Decodes s bs) :
      Decodes (a :: b :: c :: d :: s) ((i * 4 + j / 16) :: (j % 16 * 16 + k / 4) :: (k % 4 * 64 + l) :: bs)
  | three {a b c : Char} {i j k : Nat} (ha : Val a i) (hb : Val b j) (hc : Val c k) :
      Decodes [a, b, c, '='] [i * 4 + j / 16, j % 16 * 16 + k / 4]
  | two {a b : Char} {i j : Nat} (ha : Val a i) (hb : Val b j) : Decodes [a, b, '=', '='] [i * 4 + j / 16]

/-- White space and line breaks of YAML. -/
def Blank (c : Char) : Prop := c = ' ' ∨ c = '\t' ∨ c = '\n' ∨ c = '\r'

instance {c : Char} : Decidable (Blank c) := by unfold Blank; infer_instance

/-- The text of a binary scalar with its bytes. -/
def Binary (s : Text) (bs : List Nat) : Prop := Decodes (s.filter fun c => ¬ Blank c) bs

/-- The words of a text, with `space` between them. -/
inductive Words (space : Char → Bool) : Text → List Text → Prop
  | nil : Words space [] []
  | space {c : Char} {s : Text} {ws : List Text} (hc : space c = true) (h : Words space s ws) : Words space (c :: s) ws
  | word {w r : Text} {ws : List Text} (hne : w ≠ []) (hw : ∀ c ∈ w, space c = false)
      (hr : ∀ c r', r = c :: r' → space c = true) (h : Words space r ws) : Words space (w ++ r) (w :: ws)

/-- The text of bytes. -/
def encode : List Nat → Text
  | [] => []
  | [x] => [alphabet[x / 4]!, alphabet[x % 4 * 16]!, '=', '=']
  | [x, y] => [alphabet[x / 4]!, alphabet[x % 4 * 16 + y / 16]!, alphabet[y % 16 * 4]!, '=']
  | x :: y :: z :: bs =>
    alphabet[x / 4]! :: alphabet[x % 4 * 16 + y / 16]! :: alphabet[y % 16 * 4 + z / 64]! :: alphabet[z % 64]! :: encode bs

end Verif.Base64
