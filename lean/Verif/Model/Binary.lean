/-!
Model of `IsBinary` in `engines/pkg/schema/schema.go` (143-154), with `strings.Fields` and the regular expression.
-/

namespace Verif.Binary

/-- Go `unicode.IsSpace`, called by `strings.Fields` (schema.go:147). -/
def isSpace (c : Char) : Bool :=
  let n := c.toNat
  decide (9 ≤ n ∧ n ≤ 13) || n == 0x20 || n == 0x85 || n == 0xA0 || n == 0x1680 || decide (0x2000 ≤ n ∧ n ≤ 0x200A) ||
    n == 0x2028 || n == 0x2029 || n == 0x202F || n == 0x205F || n == 0x3000

/-- Go `strings.Fields` (schema.go:147); `cur` is the part of the current word before the position. -/
def fieldsFrom (cur : List Char) : List Char → List (List Char)
  | [] => if cur = [] then [] else [cur]
  | c :: r =>
    if isSpace c then (if cur = [] then fieldsFrom [] r else cur :: fieldsFrom [] r)
    else fieldsFrom (cur ++ [c]) r

/-- Go `strings.Fields`, schema.go:147. -/
def fields (s : List Char) : List (List Char) := fieldsFrom [] s

/-- The class `[A-Za-z0-9+/]` of schema.go:143. -/
def inClass (c : Char) : Bool :=
  (decide ('A' ≤ c) && decide (c ≤ 'Z')) || (decide ('a' ≤ c) && decide (c ≤ 'z')) ||
    (decide ('0' ≤ c) && decide (c ≤ '9')) || c == '+' || c == '/'

/-- schema.go:143 `base64Regex`, `^(?:C{4})*(?:C{3}=|C{2}==)?$` for the class `C`.  Groups of four which end with the sign
`=` are the last ones, for the sign is not in the class. -/
def base64Regex : List Char → Bool
  | [] => true
  | a :: b :: c :: d :: r =>
    if inClass a && inClass b && inClass c && inClass d then base64Regex r
    else
      r.isEmpty && inClass a && inClass b && ((inClass c && d == '=') || (c == '=' && d == '='))
  | _ => false

/-- schema.go:146-154 `IsBinary`. -/
def isBinary (s : List Char) : Bool := (fields s).all base64Regex

end Verif.Binary
