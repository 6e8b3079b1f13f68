/-!
Escape sequences of double-quoted scalars (YAML 1.2.2, 5.7), productions [42]-[58]: the escapes of one letter.
Independent of the Go code.
-/

namespace Verif.Escapes

/-- Letters after the backslash and the code points they denote. -/
def table : List (Char × Nat) :=
  [('0', 0x00), ('a', 0x07), ('b', 0x08), ('t', 0x09), ('n', 0x0A), ('v', 0x0B), ('f', 0x0C), ('r', 0x0D),
   ('e', 0x1B), (' ', 0x20), ('"', 0x22), ('/', 0x2F), ('\\', 0x5C), ('N', 0x85), ('_', 0xA0), ('L', 0x2028),
   ('P', 0x2029)]

/-- The content of a double-quoted scalar on one line, without escapes by number, denotes the string. -/
inductive Denotes : List Char → List Char → Prop
  | nil : Denotes [] []
  | plain (c : Char) (h : c.toNat = 9 ∨ 32 ≤ c.toNat) (h1 : c ≠ '"') (h2 : c ≠ '\\') {s t : List Char} :
      Denotes s t → Denotes (c :: s) (c :: t)
  | escape (l : Char) (n : Nat) (h : (l, n) ∈ table) {s t : List Char} :
      Denotes s t → Denotes ('\\' :: l :: s) (Char.ofNat n :: t)
  /-- A tab after the backslash stands for itself. -/
  | tab {s t : List Char} : Denotes s t → Denotes ('\\' :: '\t' :: s) ('\t' :: t)

end Verif.Escapes
