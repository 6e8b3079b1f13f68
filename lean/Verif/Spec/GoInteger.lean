import Verif.Spec.CoreSchema

/-!
Integer literals of the Go language (the specification of Go, "Integer literals"; the base 0 of `strconv` is documented by reference
to them).  Independent of the algorithm of `strconv`.
-/

namespace Verif.GoInteger

open Verif.CoreSchema

/-- `{ [ "_" ] digit }`: the digits continue the number `n` to the number `m`. -/
inductive Tail (base : Nat) : Nat → List Char → Nat → Prop
  | done (n : Nat) : Tail base n [] n
  | digit {n m : Nat} {c : Char} {cs : List Char} (hc : IsHexDigit c) (hb : CoreSchema.digit c < base)
      (h : Tail base (n * base + CoreSchema.digit c) cs m) : Tail base n (c :: cs) m
  | parted {n m : Nat} {c : Char} {cs : List Char} (hc : IsHexDigit c) (hb : CoreSchema.digit c < base)
      (h : Tail base (n * base + CoreSchema.digit c) cs m) : Tail base n ('_' :: c :: cs) m

/-- The letters of the prefixes, and the bases they stand for. -/
def letters : List (Char × Nat) := [('b', 2), ('B', 2), ('o', 8), ('O', 8), ('x', 16), ('X', 16)]

/-- `decimal_lit | binary_lit | octal_lit | hex_lit`, with the number. -/
inductive Literal : List Char → Nat → Prop
  | decimal {c : Char} {cs : List Char} {n : Nat} (hc : IsDecDigit c) (h0 : c ≠ '0')
      (h : Tail 10 (CoreSchema.digit c) cs n) : Literal (c :: cs) n
  | octal {cs : List Char} {n : Nat} (h : Tail 8 0 cs n) : Literal ('0' :: cs) n
  | lettered {x : Char} {base : Nat} {cs : List Char} {n : Nat} (hx : (x, base) ∈ letters) (hn : cs ≠ [])
      (h : Tail base 0 cs n) : Literal ('0' :: x :: cs) n

/-- A literal after an optional sign. -/
inductive Signed : List Char → Int → Prop
  | bare {s : List Char} {n : Nat} (h : Literal s n) : Signed s n
  | plus {s : List Char} {n : Nat} (h : Literal s n) : Signed ('+' :: s) n
  | minus {s : List Char} {n : Nat} (h : Literal s n) : Signed ('-' :: s) (-(n : Int))

end Verif.GoInteger
