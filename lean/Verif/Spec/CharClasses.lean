/-!
Character productions of YAML 1.2.2, by their numbers, as sets of strings: a string belongs to a class if it is a sequence of the
elements of the production.  Independent of the Go code.
-/

namespace Verif.CharClasses

/-- [35] `ns-dec-digit`. -/
def Digit (c : Char) : Prop := c ∈ "0123456789".toList

/-- [36] `ns-hex-digit`. -/
def Hex (c : Char) : Prop := c ∈ "0123456789ABCDEFabcdef".toList

/-- [37] `ns-ascii-letter`. -/
def Letter (c : Char) : Prop := c ∈ "ABCDEFGHIJKLMNOPQRSTUVWXYZabcdefghijklmnopqrstuvwxyz".toList

/-- [38] `ns-word-char`. -/
def WordChar (c : Char) : Prop := Digit c ∨ Letter c ∨ c = '-'

/-- [23] `c-flow-indicator`. -/
def FlowIndicator (c : Char) : Prop := c ∈ ",[]{}".toList

/-- [39] `ns-uri-char` without escapes. -/
def UriChar (c : Char) : Prop := WordChar c ∨ c ∈ "#;/?:@&=+$,_.!~*'()[]".toList

/-- [40] `ns-tag-char` without escapes. -/
def TagChar (c : Char) : Prop := UriChar c ∧ c ≠ '!' ∧ ¬ FlowIndicator c

/-- [2] `nb-json`. -/
def JsonChar (c : Char) : Prop := c = '\t' ∨ 0x20 ≤ c.toNat

/-- [1] `c-printable` without line breaks, white space and the byte order mark: [34] `ns-char`. -/
def NsChar (c : Char) : Prop :=
  (0x21 ≤ c.toNat ∧ c.toNat ≤ 0x7E) ∨ c.toNat = 0x85 ∨ (0xA0 ≤ c.toNat ∧ c.toNat ≤ 0xD7FF) ∨
    (0xE000 ≤ c.toNat ∧ c.toNat ≤ 0xFFFD ∧ c.toNat ≠ 0xFEFF) ∨ 0x10000 ≤ c.toNat

/-- Characters with escapes by two hexadecimal digits after a percent sign. -/
inductive Escaped (P : Char → Prop) : List Char → Prop
  | nil : Escaped P []
  | char {c : Char} {s : List Char} : P c → Escaped P s → Escaped P (c :: s)
  | percent {a b : Char} {s : List Char} : Hex a → Hex b → Escaped P s → Escaped P ('%' :: a :: b :: s)

/-- [118] `nb-single-char`. -/
inductive Single : List Char → Prop
  | nil : Single []
  | char {c : Char} {s : List Char} : JsonChar c → c ≠ '\'' → Single s → Single (c :: s)
  | quote {s : List Char} : Single s → Single ('\'' :: '\'' :: s)

/-- [42]–[58]: the escapes of one letter. -/
def escapeLetters : List Char := "0abt\tnvfre \"/\\N_LP".toList

/-- [107] `nb-double-char`, with the letters `ls` after the backslash. -/
inductive Double (ls : List Char) : List Char → Prop
  | nil : Double ls []
  | char {c : Char} {s : List Char} : JsonChar c → c ≠ '"' → c ≠ '\\' → Double ls s → Double ls (c :: s)
  | letter {l : Char} {s : List Char} : l ∈ ls → Double ls s → Double ls ('\\' :: l :: s)
  | hex {l : Char} {n : Nat} {d s : List Char} : (l, n) ∈ [('x', 2), ('u', 4), ('U', 8)] → d.length = n → (∀ c ∈ d, Hex c) →
      Double ls s → Double ls ('\\' :: l :: (d ++ s))

end Verif.CharClasses
