import Verif.Model.Strconv

/-!
Model of `engines/pkg/schema/schema.go`: classification of scalar texts and conversions.

Timestamps are in `Timestamp.lean`.  Not modelled: the finite, non-special case of
`FromFloat`/`ToFloat` (`strconv` float formatting and parsing).
-/

namespace Verif.Schema

open Verif.Strconv

/-- schema.go:15 `MergeKey`. -/
def mergeKey : List Char := ['<', '<']

/-- schema.go:19-26 `IsNull`. -/
def isNull (s : List Char) : Bool :=
  s = "null".toList || s = "Null".toList || s = "NULL".toList || s = "~".toList || s = []

/-- schema.go:48-57 `tryGetBoolean`. -/
def tryGetBoolean (s : List Char) : Option Bool :=
  if s = "true".toList || s = "True".toList || s = "TRUE".toList then some true
  else if s = "false".toList || s = "False".toList || s = "FALSE".toList then some false
  else none

/-- schema.go:29-32 `IsBoolean`. -/
def isBoolean (s : List Char) : Bool := (tryGetBoolean s).isSome

/-- schema.go:35-37 `FromBoolean` (`strconv.FormatBool`). -/
def fromBoolean (b : Bool) : List Char := if b then "true".toList else "false".toList

/-- schema.go:40-46 `ToBoolean` (`none` is the error). -/
def toBoolean (s : List Char) : Option Bool := tryGetBoolean s

/-- `[0-9]`. -/
def isDec (c : Char) : Bool := '0'.toNat ≤ c.toNat && c.toNat ≤ '9'.toNat
/-- `[0-7]`. -/
def isOct (c : Char) : Bool := '0'.toNat ≤ c.toNat && c.toNat ≤ '7'.toNat
/-- `[0-9a-fA-F]`. -/
def isHex (c : Char) : Bool :=
  isDec c || ('a'.toNat ≤ c.toNat && c.toNat ≤ 'f'.toNat) || ('A'.toNat ≤ c.toNat && c.toNat ≤ 'F'.toNat)

/-- A regular expression `^C+$` for a character class `C`. -/
def plusOf (p : Char → Bool) (s : List Char) : Bool := !s.isEmpty && s.all p

/-- an optional sign `[-+]?`. -/
def dropSign : List Char → List Char
  | '-' :: r => r
  | '+' :: r => r
  | r => r

/-- schema.go:60 `yamlDecimalIntegerRegex`. -/
def decimalInteger (s : List Char) : Bool := plusOf isDec (dropSign s)

/-- schema.go:61 `yamlDecimalUnsignedRegex`. -/
def decimalUnsigned (s : List Char) : Bool :=
  match s with
  | '+' :: r => plusOf isDec r
  | r => plusOf isDec r

/-- schema.go:62 `yamlOctalIntegerRegex`. -/
def octalInteger (s : List Char) : Bool :=
  match s with
  | '0' :: 'o' :: r => plusOf isOct r
  | _ => false

/-- schema.go:63 `yamlHexadecimalIntegerRegex`. -/
def hexInteger (s : List Char) : Bool :=
  match s with
  | '0' :: 'x' :: r => plusOf isHex r
  | _ => false

/-- schema.go:67-71 `IsInteger`. -/
def isInteger (s : List Char) : Bool := decimalInteger s || octalInteger s || hexInteger s

/-- schema.go:74-78 `IsUnsignedInteger`. -/
def isUnsignedInteger (s : List Char) : Bool := decimalUnsigned s || octalInteger s || hexInteger s

/-- schema.go:81-83 `FromInteger`. -/
def fromInteger (v : Int) : List Char := formatInt v

/-- schema.go:86-88 `ToInteger`. -/
def toInteger (s : List Char) (bits : Nat) : Except NumErr Int := parseInt0 s (width bits)

/-- schema.go:91-93 `FromUnsignedInteger`. -/
def fromUnsignedInteger (v : Nat) : List Char := formatUint v

/-- schema.go:96-98 `ToUnsignedInteger`. -/
def toUnsignedInteger (s : List Char) (bits : Nat) : Except NumErr Nat := parseUint0 s (width bits)

/-- the optional exponent `(?:[eE][-+]?[0-9]+)?$` of schema.go:101. -/
def floatExp (s : List Char) : Bool :=
  match s with
  | [] => true
  | c :: r => (c = 'e' || c = 'E') && plusOf isDec (dropSign r)

/-- schema.go:101 `yamlFloatRegex`.  The digit runs are followed by a character outside of `[0-9]` or the end,
so greedy splitting decides the regular expression. -/
def floatNumber (s : List Char) : Bool :=
  let s := dropSign s
  match s with
  | '.' :: r =>
    let ds := r.takeWhile isDec
    !ds.isEmpty && floatExp (r.dropWhile isDec)
  | s =>
    let ds := s.takeWhile isDec
    !ds.isEmpty &&
      (match s.dropWhile isDec with
        | '.' :: r => floatExp (r.dropWhile isDec)
        | r => floatExp r)

/-- schema.go:102 `yamlFloatInfinityRegex`. -/
def floatInfinity (s : List Char) : Bool :=
  let r := dropSign s
  r = ".inf".toList || r = ".Inf".toList || r = ".INF".toList

/-- schema.go:103 `yamlNotANumberRegex`. -/
def notANumber (s : List Char) : Bool :=
  s = ".nan".toList || s = ".NaN".toList || s = ".NAN".toList

/-- schema.go:107-111 `IsFloat`. -/
def isFloat (s : List Char) : Bool := floatNumber s || floatInfinity s || notANumber s

end Verif.Schema
