import Verif.Model.Schema

/-!
Model of `FromFloat` and `ToFloat` in `engines/pkg/schema/schema.go` (114-141) with the parts of the package `strconv` which
turn digits into text and text into digits.  The search for the shortest digits and the rounding to the nearest float are
left open (`Rounding`), the type of finite floats as well.
-/

namespace Verif.Float

/-- Go `strconv/ftoa.go` `decimalSlice` with the sign: the number `± 0.d₁d₂… · 10 ^ dp`; zero has no digits. -/
structure Decimal where
  neg : Bool
  digits : List Char
  dp : Int
deriving DecidableEq, Repr

/-- A value of the Go type `float64`, schema.go:114-125 tells these cases apart. -/
inductive GoFloat (φ : Type) where
  | inf (neg : Bool)
  | nan
  | fin (x : φ)
deriving DecidableEq, Repr

/-- The algorithms which are not modelled: `shortest` is `ryuFtoaShortest` (`strconv/ftoaryu.go`, called by schema.go:123),
`round` gives the nearest float of a bit size for `± m · 10 ^ e` (`strconv/atof.go` `atof64`, `atof32`, called by
schema.go:139), `none` being `ErrRange`. -/
structure Rounding (φ : Type) where
  shortest : φ → Decimal
  round : Nat → Bool → Nat → Int → Option φ

/-- A digit, `byte(n) + '0'` in Go `strconv/ftoa.go` `fmtE`. -/
def digitChar (n : Nat) : Char := Char.ofNat ('0'.toNat + n)

/-- The exponent written by Go `strconv/ftoa.go` `fmtE`: a sign and two or three digits. -/
def fmtExp (e : Int) : List Char :=
  let n := e.natAbs
  (if e < 0 then '-' else '+') ::
    (if n < 10 then ['0', digitChar n]
     else if n < 100 then [digitChar (n / 10), digitChar (n % 10)]
     else [digitChar (n / 100), digitChar (n / 10 % 10), digitChar (n % 10)])

/-- Go `strconv/ftoa.go` `fmtE` with the precision of the shortest digits (`prec = digs.nd - 1`). -/
def fmtE (d : Decimal) : List Char :=
  (if d.neg then ['-'] else []) ++
    (match d.digits with
      | [] => ['0']
      | [c] => [c]
      | c :: cs => c :: '.' :: cs) ++
    'e' :: fmtExp (if d.digits = [] then 0 else d.dp - 1)

/-- schema.go:114-125 `FromFloat`. -/
def fromFloat {φ : Type} (R : Rounding φ) : GoFloat φ → List Char
  | .inf false => ".inf".toList
  | .inf true => "-.inf".toList
  | .nan => ".nan".toList
  | .fin x => fmtE (R.shortest x)

/-- The state of the digit loop in Go `strconv/atof.go` `readFloat`. -/
structure Mant where
  m : Nat
  nd : Nat
  dp : Int
  sawDot : Bool
  sawDigits : Bool
deriving DecidableEq, Repr

/-- Value of a digit, Go `strconv/atof.go` `readFloat`. -/
def digitVal (c : Char) : Nat := c.toNat - '0'.toNat

/-- Go `strconv/atof.go` `readFloat`, digit loop (in decimal notation, without underscores).  The mantissa is exact here; the Go
code keeps 19 digits of it and reads the text again if there are more. -/
def mantLoop (st : Mant) : List Char → Mant × List Char
  | [] => (st, [])
  | c :: r =>
    if c = '.' then
      if st.sawDot then (st, c :: r) else mantLoop { st with sawDot := true, dp := st.nd } r
    else if Schema.isDec c then
      if c = '0' ∧ st.nd = 0 then mantLoop { st with sawDigits := true, dp := st.dp - 1 } r
      else mantLoop { st with sawDigits := true, nd := st.nd + 1, m := st.m * 10 + digitVal c } r
    else (st, c :: r)

/-- Go `strconv/atof.go` `readFloat`, loop over the digits of the exponent. -/
def expLoop (e : Nat) : List Char → Nat × List Char
  | [] => (e, [])
  | c :: r => if Schema.isDec c then expLoop (if e < 10000 then e * 10 + digitVal c else e) r else (e, c :: r)

/-- An optional sign, Go `strconv/atof.go` `readFloat` (twice). -/
def readSign : List Char → Bool × List Char
  | '+' :: r => (false, r)
  | '-' :: r => (true, r)
  | r => (false, r)

/-- Go `strconv/atof.go` `readFloat`, for a whole text: sign, digits and exponent of ten. -/
def readFloat (s : List Char) : Option (Bool × Nat × Int) :=
  let (neg, s) := readSign s
  let (st, r) := mantLoop ⟨0, 0, 0, false, false⟩ s
  let dp : Int := if st.sawDot then st.dp else st.nd
  if st.sawDigits then
    match r with
    | [] => some (neg, st.m, if st.m = 0 then 0 else dp - st.nd)
    | c :: r =>
      if c = 'e' ∨ c = 'E' then
        let (eneg, r) := readSign r
        match r with
        | [] => none
        | d :: r =>
          if Schema.isDec d then
            let (e, rest) := expLoop 0 (d :: r)
            if rest = [] then
              some (neg, st.m, if st.m = 0 then 0 else dp + (if eneg then -(e : Int) else e) - st.nd)
            else none
          else none
      else none
  else none

/-- schema.go:128-141 `ToFloat`; `none` is an error.  Texts which are no floats of YAML but numbers of Go (hexadecimal ones, words
for infinity) are errors here; the readers test `IsFloat` before. -/
def toFloat {φ : Type} (R : Rounding φ) (s : List Char) (bits : Nat) : Option (GoFloat φ) :=
  if Schema.floatInfinity s then some (.inf (s.head? = some '-'))
  else if Schema.notANumber s then some .nan
  else
    match readFloat s with
    | some (neg, m, e) => (R.round bits neg m e).map .fin
    | none => none

end Verif.Float
