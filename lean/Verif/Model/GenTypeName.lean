import Verif.Model.GenNames
import Verif.Spec.GoType

/-!
Model of the names of types in generated code: generator/generator.go `extractTypeName` and `escapeTag`.  What `reflect` tells
of a type is `Verif.GoType.Ty`; `t.String()` of the predeclared types is their name, that of `interface{}` is "interface {}".
-/

namespace Verif.GenTypeName

open Verif.GoType Verif.GenNames

/-- The lower case hexadecimal digit of a number below 16: `lowerhex` of strconv/quote.go. -/
def hexChar (n : Nat) : Char := if n < 10 then Char.ofNat (48 + n) else Char.ofNat (87 + n)

/-- `k` hexadecimal digits of a number. -/
def hexDigits : Nat → Nat → Text
  | 0, _ => []
  | k + 1, n => hexDigits k (n / 16) ++ [hexChar (n % 16)]

/-- One character of `strconv.Quote` (`appendEscapedRune` in strconv/quote.go), called at generator.go:289; `print` is
`strconv.IsPrint`. -/
def quoteChar (print : Char → Bool) (c : Char) : Text :=
  if c = '"' ∨ c = '\\' then ['\\', c]
  else if print c then [c]
  else if c = '\x07' then ['\\', 'a']
  else if c = '\x08' then ['\\', 'b']
  else if c = '\x0c' then ['\\', 'f']
  else if c = '\n' then ['\\', 'n']
  else if c = '\r' then ['\\', 'r']
  else if c = '\t' then ['\\', 't']
  else if c = '\x0b' then ['\\', 'v']
  else if c.toNat < 32 ∨ c.toNat = 127 then '\\' :: 'x' :: hexDigits 2 c.toNat
  else if c.toNat < 0x10000 then '\\' :: 'u' :: hexDigits 4 c.toNat
  else '\\' :: 'U' :: hexDigits 8 c.toNat

/-- `strconv.Quote`, called at generator.go:289. -/
def quote (print : Char → Bool) (s : Text) : Text := '"' :: (s.flatMap (quoteChar print) ++ ['"'])

/-- generator.go:286-292 `escapeTag`. -/
def escapeTag (print : Char → Bool) (tag : Text) : Text :=
  if '`' ∈ tag then quote print tag else '`' :: (tag ++ ['`'])

/-- generator.go:225-228: the tag behind the type of a field. -/
def tagText (print : Char → Bool) (tag : Text) : Text :=
  if tag = [] then [] else ' ' :: escapeTag print tag

/-- `strings.Join(lines, "; ")`, called at generator.go:231. -/
def joinLines : List Text → Text
  | [] => []
  | [x] => x
  | x :: xs => x ++ ("; ".toList ++ joinLines xs)

mutual

/-- generator.go:197-240 `extractTypeName`: the text and the map `imports` after; `none` if the fuel of `pkgAlias` does not
suffice. -/
def typeName (print : Char → Bool) (own : Text) (fuel : Nat) : Ty → Imports → Option (Text × Imports)
  | .pointer t, m =>
    match typeName print own fuel t m with
    | none => none
    | some (x, m) => some ('*' :: x, m)
  | .slice t, m =>
    match typeName print own fuel t m with
    | none => none
    | some (x, m) => some ("[]".toList ++ x, m)
  | .array n t, m =>
    match typeName print own fuel t m with
    | none => none
    | some (x, m) => some ("[".toList ++ (itoaChars n ++ ("]".toList ++ x)), m)
  | .map k t, m =>
    match typeName print own fuel k m with
    | none => none
    | some (x, m) =>
      match typeName print own fuel t m with
      | none => none
      | some (y, m) => some ("map[".toList ++ (x ++ ("]".toList ++ y)), m)
  | .struct fs, m =>
    match fieldLines print own fuel fs m with
    | none => none
    | some (lines, m) => some ("struct { ".toList ++ (joinLines lines ++ " }".toList), m)
  | .iface, m => some ("interface {}".toList, m)
  | .other s, m => some (s, m)
  | .named pkg name, m =>
    if pkg = [] then some (name, m)
    else if pkg = own then some (name, m)
    else
      match pkgAlias m fuel pkg with
      | none => none
      | some (a, m) => some (a ++ ('.' :: name), m)

/-- generator.go:217-230: the lines for the fields of a struct. -/
def fieldLines (print : Char → Bool) (own : Text) (fuel : Nat) : Fields → Imports → Option (List Text × Imports)
  | .nil, m => some ([], m)
  | .cons name _ embedded t tag rest, m =>
    match typeName print own fuel t m with
    | none => none
    | some (x, m) =>
      match fieldLines print own fuel rest m with
      | none => none
      | some (lines, m) =>
        some (((if embedded then [] else name ++ " ".toList) ++ (x ++ tagText print tag)) :: lines, m)

end

end Verif.GenTypeName
