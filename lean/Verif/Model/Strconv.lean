/-!
The parts of Go's `strconv` that the modelled code calls (standard library, modelled from its documented
algorithm; machine overflow checks are expressed on unbounded naturals).
-/

namespace Verif.Strconv

/-- `strconv.ErrSyntax` / `strconv.ErrRange`. -/
inductive NumErr where
  | syntax | range
deriving DecidableEq, Repr

/-- The bit size 0 stands for the size of `int` and `uint` in `ParseInt` and `ParseUint` (64 bits; a 32-bit platform is
not modelled, nor are the bit sizes above 64, which are an error). -/
def width (bits : Nat) : Nat := if bits = 0 then 64 else bits

theorem width_pos (bits : Nat) : 0 < width bits := by
  unfold width
  split <;> omega

/-- Value of one digit: `'0'..'9'`, letters of either case from 10 on (strconv/atoi.go, `ParseUint` loop). -/
def digitVal (c : Char) : Option Nat :=
  if '0'.toNat ≤ c.toNat ∧ c.toNat ≤ '9'.toNat then some (c.toNat - '0'.toNat)
  else if 'a'.toNat ≤ c.toNat ∧ c.toNat ≤ 'z'.toNat then some (c.toNat - 'a'.toNat + 10)
  else if 'A'.toNat ≤ c.toNat ∧ c.toNat ≤ 'Z'.toNat then some (c.toNat - 'A'.toNat + 10)
  else none

/-- Digit loop of `strconv.ParseUint`: `us` is "underscores are allowed" (`base0`), `maxVal` is
`1<<bitSize - 1`; the result also tells whether an underscore was seen. -/
def digitLoop (base maxVal : Nat) (us : Bool) : List Char → Nat → Bool → Except NumErr (Nat × Bool)
  | [], n, seen => .ok (n, seen)
  | c :: cs, n, seen =>
    if c = '_' ∧ us then digitLoop base maxVal us cs n true
    else
      match digitVal c with
      | none => .error .syntax
      | some d =>
        if d ≥ base then .error .syntax
        else if n * base + d > maxVal then .error .range
        else digitLoop base maxVal us cs (n * base + d) seen

/-- Loop of `strconv.underscoreOK`; `saw` is the class of the last character (`'^'`, `'0'`, `'_'`, `'!'`). -/
def underscoreLoop (hex : Bool) : List Char → Char → Bool
  | [], saw => saw ≠ '_'
  | c :: cs, saw =>
    match digitVal c with
    | some d =>
      if d < 10 ∨ (hex ∧ d < 16) then underscoreLoop hex cs '0'
      else if saw = '_' then false
      else underscoreLoop hex cs '!'
    | none =>
      if c = '_' then (if saw ≠ '0' then false else underscoreLoop hex cs '_')
      else if saw = '_' then false
      else underscoreLoop hex cs '!'

/-- `strconv.underscoreOK`. -/
def underscoreOK (s : List Char) : Bool :=
  let s := match s with
    | '-' :: r => r
    | '+' :: r => r
    | r => r
  match s with
  | '0' :: c :: r =>
    if c = 'b' ∨ c = 'B' ∨ c = 'o' ∨ c = 'O' then underscoreLoop false r '0'
    else if c = 'x' ∨ c = 'X' then underscoreLoop true r '0'
    else underscoreLoop false s '^'
  | _ => underscoreLoop false s '^'

/-- Base prefix detection of `strconv.ParseUint` with `base = 0`: the base and the digits. -/
def splitBase : List Char → Nat × List Char
  | '0' :: c :: d :: r =>
    if c = 'b' ∨ c = 'B' then (2, d :: r)
    else if c = 'o' ∨ c = 'O' then (8, d :: r)
    else if c = 'x' ∨ c = 'X' then (16, d :: r)
    else (8, c :: d :: r)
  | '0' :: r => (8, r)
  | s => (10, s)

/-- `strconv.ParseUint(s, 0, bitSize)`. -/
def parseUint0 (s : List Char) (bits : Nat) : Except NumErr Nat :=
  if s = [] then .error .syntax
  else
    let (base, ds) := splitBase s
    match digitLoop base (2 ^ bits - 1) true ds 0 false with
    | .error e => .error e
    | .ok (n, seen) => if seen && !underscoreOK s then .error .syntax else .ok n

/-- `strconv.ParseUint(s, base, bitSize)` for an explicit base. -/
def parseUintBase (base : Nat) (s : List Char) (bits : Nat) : Except NumErr Nat :=
  if s = [] then .error .syntax
  else
    match digitLoop base (2 ^ bits - 1) false s 0 false with
    | .error e => .error e
    | .ok (n, _) => .ok n

/-- Sign handling and range check shared by the two forms of `strconv.ParseInt`; `pu` is the unsigned parser.
A range error of the unsigned parser leaves `un = maxVal ≥ cutoff`, hence is a range error here as well. -/
def parseIntWith (pu : List Char → Nat → Except NumErr Nat) (s : List Char) (bits : Nat) :
    Except NumErr Int :=
  let finish (neg : Bool) (r : List Char) : Except NumErr Int :=
    match pu r bits with
    | .error e => .error e
    | .ok un =>
      if !neg && un ≥ 2 ^ (bits - 1) then .error .range
      else if neg && un > 2 ^ (bits - 1) then .error .range
      else .ok (if neg then -(un : Int) else un)
  match s with
  | [] => .error .syntax
  | '+' :: r => finish false r
  | '-' :: r => finish true r
  | r => finish false r

/-- `strconv.ParseInt(s, 0, bitSize)`. -/
def parseInt0 (s : List Char) (bits : Nat) : Except NumErr Int := parseIntWith parseUint0 s bits

/-- `strconv.ParseInt(s, base, bitSize)` for an explicit base. -/
def parseIntBase (base : Nat) (s : List Char) (bits : Nat) : Except NumErr Int :=
  parseIntWith (parseUintBase base) s bits

/-- The decimal digit character of `d < 10`. -/
def digitChar (d : Nat) : Char := Char.ofNat ('0'.toNat + d)

/-- `strconv.FormatUint(n, 10)`. -/
def formatUint (n : Nat) : List Char :=
  if _h : n < 10 then [digitChar n] else formatUint (n / 10) ++ [digitChar (n % 10)]
termination_by n
decreasing_by omega

/-- `strconv.FormatInt(n, 10)`. -/
def formatInt : Int → List Char
  | .ofNat n => formatUint n
  | .negSucc n => '-' :: formatUint (n + 1)

end Verif.Strconv
