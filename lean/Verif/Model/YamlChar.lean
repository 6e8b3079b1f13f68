import Verif.Model.Strconv

/-!
Model of `engines/yayamls/yamlchar/{chars,charset,transformations}.go`.  Strings are lists of characters
(`[]rune(s)`); functions that walk an index through a rune slice are functions of the remaining suffix.
-/

namespace Verif.YamlChar

open Verif.Strconv

/-- chars.go:195-197 `IsDigit`. -/
def isDigit (c : Char) : Bool := '0'.toNat ≤ c.toNat && c.toNat ≤ '9'.toNat

/-- chars.go:200-202 `IsHexDigit`. -/
def isHexDigit (c : Char) : Bool :=
  isDigit c || ('A'.toNat ≤ c.toNat && c.toNat ≤ 'F'.toNat) || ('a'.toNat ≤ c.toNat && c.toNat ≤ 'f'.toNat)

/-- chars.go:205-212 `AreHexDigits`. -/
def areHexDigits (cs : List Char) : Bool := cs.all isHexDigit

/-- chars.go:215-217 `IsASCIILetter`. -/
def isASCIILetter (c : Char) : Bool :=
  ('A'.toNat ≤ c.toNat && c.toNat ≤ 'Z'.toNat) || ('a'.toNat ≤ c.toNat && c.toNat ≤ 'z'.toNat)

/-- chars.go:185-192 `IsFlowIndicatorChar`. -/
def isFlowIndicatorChar (c : Char) : Bool :=
  c = ',' || c = '[' || c = ']' || c = '{' || c = '}'

/-- chars.go:220-222 `IsJSONChar`. -/
def isJSONChar (c : Char) : Bool := c.toNat = 0x09 || (0x20 ≤ c.toNat && c.toNat ≤ 0x10FFFF)

/-- chars.go:266-268 `IsWhitespaceChar`. -/
def isWhitespaceChar (c : Char) : Bool := c = ' ' || c = '\t'

/-- chars.go:271-273 `IsLineBreakChar`. -/
def isLineBreakChar (c : Char) : Bool := c = '\n' || c = '\r'

/-- chars.go:276-278 `IsBlankChar`. -/
def isBlankChar (c : Char) : Bool := isWhitespaceChar c || isLineBreakChar c

/-- chars.go:53-60 `IsDecimal`. -/
def isDecimal (s : List Char) : Bool := s.all isDigit

/-- chars.go:63-70 `IsWord`. -/
def isWord (s : List Char) : Bool := s.all (fun c => isDigit c || isASCIILetter c || c = '-')

/-- chars.go:74 `URIOnlyChars`. -/
def uriOnlyChars : List Char := "-#;/?:@&=+$_.!~*'".toList

/-- chars.go:73-94 `IsURI`. -/
def isURI : List Char → Bool
  | [] => true
  | '%' :: a :: b :: r => areHexDigits [a, b] && isURI r
  | '%' :: _ => false
  | c :: r =>
    (isDigit c || isASCIILetter c || isFlowIndicatorChar c || uriOnlyChars.contains c) && isURI r

/-- chars.go:98 `TagOnlyChars`. -/
def tagOnlyChars : List Char := "#;/?:@&=+$_.~*'".toList

/-- chars.go:97-118 `IsTagString`. -/
def isTagString : List Char → Bool
  | [] => true
  | '%' :: a :: b :: r => areHexDigits [a, b] && isTagString r
  | '%' :: _ => false
  | c :: r => (isDigit c || isASCIILetter c || tagOnlyChars.contains c) && isTagString r

/-- chars.go:127-134 `IsPlainSafeString`. -/
def isPlainSafeString (s : List Char) : Bool := s.all (fun c => !isFlowIndicatorChar c)

/-- chars.go:121-124 `IsAnchorString`. -/
def isAnchorString (s : List Char) : Bool := isPlainSafeString s

/-- chars.go:137-154 `IsSingleQuotedString`. -/
def isSingleQuotedString : List Char → Bool
  | [] => true
  | '\'' :: '\'' :: r => isSingleQuotedString r
  | '\'' :: _ => false
  | c :: r => isJSONChar c && isSingleQuotedString r

/-- chars.go:225 `singleEscapedCharacters`. -/
def singleEscapedCharacters : List Char := "0at\tnvfre \"/\\N_LP".toList

/-- chars.go:230-263 `IsEscapedCharacter`: the rest of the string after the escape, `none` for `false`. -/
def escapedRest : List Char → Option (List Char)
  | [] => none
  | 'x' :: r => if r.length < 2 || !areHexDigits (r.take 2) then none else some (r.drop 2)
  | 'u' :: r => if r.length < 4 || !areHexDigits (r.take 4) then none else some (r.drop 4)
  | 'U' :: r => if r.length < 8 || !areHexDigits (r.take 8) then none else some (r.drop 8)
  | c :: r => if singleEscapedCharacters.contains c then some r else none

theorem escapedRest_length {s r : List Char} (h : escapedRest s = some r) : r.length < s.length := by
  unfold escapedRest at h
  split at h
  · simp at h
  all_goals
    split at h <;> simp at h
    subst h
    simp
  all_goals omega

/-- chars.go:157-182 `IsDoubleQuotedString`. -/
def isDoubleQuotedString (s : List Char) : Bool :=
  match s with
  | [] => true
  | c :: r =>
    if c = '\\' then
      match _h : escapedRest r with
      | none => false
      | some r' => isDoubleQuotedString r'
    else if c = '"' then false
    else isJSONChar c && isDoubleQuotedString r
termination_by s.length
decreasing_by
  · have := escapedRest_length _h; simp; omega
  · simp

/-- charset.go:4-27 `CharSetType` (the unknown charset 0 included). -/
inductive CharSet where
  | unknown | decimal | word | uri | tag | anchor | plainSafe | singleQuoted | doubleQuoted
deriving DecidableEq, Repr

/-- charset.go:6-27: the numeric value of a charset. -/
def CharSet.code : CharSet → Nat
  | unknown => 0 | decimal => 1 | word => 2 | uri => 4 | tag => 8 | anchor => 16 | plainSafe => 32
  | singleQuoted => 64 | doubleQuoted => 128

/-- charset.go:30-51 `ConformsCharSet`. -/
def conformsCharSet (s : List Char) : CharSet → Bool
  | .unknown => false
  | .decimal => isDecimal s
  | .word => isWord s
  | .uri => isURI s
  | .tag => isTagString s
  | .anchor => isAnchorString s
  | .plainSafe => isPlainSafeString s
  | .singleQuoted => isSingleQuotedString s
  | .doubleQuoted => isDoubleQuotedString s

/-! ### transformations.go -/

/-- Outcome of an un-quoting function.  `errOrPanic`: the Go code reads a slice beyond the length of the rune
slice; whether this is a panic or an error depends on the slice's capacity. -/
inductive Outcome where
  | ok (s : List Char)
  | err
  | errOrPanic
deriving DecidableEq, Repr

/-- Prepend a character to a successful outcome (`sb.WriteRune` before continuing). -/
def Outcome.cons (c : Char) : Outcome → Outcome
  | .ok s => .ok (c :: s)
  | o => o

/-- transformations.go:11-40 `ConvertFromYAMLSingleQuotedString`; `q` is `hasPrecedingQuote`. -/
def fromSingle : Bool → List Char → Outcome
  | q, [] => if q then .err else .ok []
  | q, c :: r =>
    if c = '\'' then
      if q then (fromSingle false r).cons '\'' else fromSingle true r
    else if q then .err
    else if !isJSONChar c then .err
    else (fromSingle false r).cons c

/-- transformations.go:11-40. -/
def convertFromSingle (s : List Char) : Outcome := fromSingle false s

/-- transformations.go:43-45 `ConvertToYAMLSingleQuotedString`. -/
def convertToSingle (s : List Char) : List Char :=
  s.flatMap (fun c => if c = '\'' then ['\'', '\''] else [c])

/-- `strconv.QuoteRuneToASCII` without the quotes (transformations.go:114-120), on the characters that are not
JSON characters, i.e. the control characters below 0x20 except tab: those without a short escape in Go are
written as `\x` and two lower case hexadecimal digits. (`\a \b \f \n \r \t \v` are caught before by
`escapeASCIICharacter`.) -/
def hexDigitChar (d : Nat) : Char := if d < 10 then Char.ofNat (48 + d) else Char.ofNat (87 + d)

/-- transformations.go:114-120 `escapeUnicodeCharacter`. -/
def escapeUnicode (c : Char) : Option (List Char) :=
  if isJSONChar c then none
  else some ['\\', 'x', hexDigitChar (c.toNat / 16), hexDigitChar (c.toNat % 16)]

/-- transformations.go:124-164: the escape letter for each character code. -/
def escapeTable : List (Nat × Char) :=
  [(0x00, '0'), (0x07, 'a'), (0x08, 'b'), (0x09, 't'), (0x0A, 'n'), (0x0B, 'v'), (0x0C, 'f'), (0x0D, 'r'),
    (0x1B, 'e'), (0x22, '"'), (0x5C, '\\'), (0x85, 'N'), (0xA0, '_'), (0x2028, 'L'), (0x2029, 'P')]

/-- transformations.go:122-166 `escapeASCIICharacter`. -/
def escapeASCII (c : Char) : Option (List Char) :=
  (escapeTable.lookup c.toNat).map (fun l => ['\\', l])

/-- transformations.go:107-112 `escapeCharacter`. -/
def escapeCharacter (c : Char) : Option (List Char) :=
  match escapeASCII c with
  | some e => some e
  | none => escapeUnicode c

/-- transformations.go:82-93 `ConvertToYAMLDoubleQuotedString`. -/
def convertToDouble (s : List Char) : List Char :=
  s.flatMap (fun c => (escapeCharacter c).getD [c])

/-- transformations.go:168-210 `unescapeASCIICharacter`. -/
def unescapeASCII (c : Char) : Option Char :=
  match c with
  | '0' => some (Char.ofNat 0)
  | 'a' => some (Char.ofNat 7)
  | 'b' => some (Char.ofNat 8)
  | 't' => some '\t'
  | 'n' => some '\n'
  | 'v' => some (Char.ofNat 0x0B)
  | 'f' => some (Char.ofNat 0x0C)
  | 'r' => some '\r'
  | 'e' => some (Char.ofNat 0x1B)
  | ' ' => some ' '
  | '"' => some '"'
  | '/' => some '/'
  | '\\' => some '\\'
  | 'N' => some (Char.ofNat 0x85)
  | '_' => some (Char.ofNat 0xA0)
  | 'L' => some (Char.ofNat 0x2028)
  | 'P' => some (Char.ofNat 0x2029)
  | _ => none

/-- transformations.go:253-263 `parseEscapedHexDigits`: `utf8.ValidRune` fails for negative numbers,
surrogates and numbers above 0x10FFFF; these become U+FFFD. -/
def parseEscapedHexDigits (ds : List Char) : Option Char :=
  match parseIntBase 16 ds 32 with
  | .error _ => none
  | .ok v =>
    if 0 ≤ v ∧ v.toNat.isValidChar then some (Char.ofNat v.toNat) else some (Char.ofNat 0xFFFD)

/-- Result of un-escaping one character: the character and the rest of the string. -/
inductive EscOutcome where
  | ok (c : Char) (rest : List Char)
  | err
  | errOrPanic
deriving DecidableEq, Repr

/-- transformations.go:212-251 `unescapeUnicodeCharacter`, one case of the switch with `k` digits; `r` is the
string after the letter.  The index is advanced past the digits *before* the digits are sliced
(lines 224-225, 235-236, 246-247), so the number is read from the `k` characters *after* the digits. -/
def unescapeHex (k : Nat) (r : List Char) : EscOutcome :=
  if r.length < k then .err
  else if !areHexDigits (r.take k) then .err
  else
    let rest := r.drop k
    if rest.length < k then .errOrPanic
    else
      match parseEscapedHexDigits (rest.take k) with
      | none => .err
      | some c => .ok c rest

/-- transformations.go:95-105 `unescapeCharacter`. -/
def unescapeCharacter : List Char → EscOutcome
  | [] => .err
  | 'x' :: r => unescapeHex 2 r
  | 'u' :: r => unescapeHex 4 r
  | 'U' :: r => unescapeHex 8 r
  | c :: r =>
    match unescapeASCII c with
    | none => .err
    | some v => .ok v r

theorem unescapeCharacter_length {s r : List Char} {c : Char} (h : unescapeCharacter s = .ok c r) :
    r.length < s.length := by
  have hx : ∀ k (t : List Char), unescapeHex k t = .ok c r → r.length ≤ t.length := by
    intro k t ht
    unfold unescapeHex at ht
    split at ht
    · simp at ht
    · split at ht
      · simp at ht
      · simp only at ht
        split at ht
        · simp at ht
        · split at ht
          · simp at ht
          · simp at ht
            rw [← ht.2]; simp
  unfold unescapeCharacter at h
  split at h
  · simp at h
  · have := hx _ _ h; simp; omega
  · have := hx _ _ h; simp; omega
  · have := hx _ _ h; simp; omega
  · split at h
    · simp at h
    · simp at h; rw [← h.2]; simp

/-- transformations.go:48-79 `ConvertFromYAMLDoubleQuotedString`. -/
def convertFromDouble (s : List Char) : Outcome :=
  match s with
  | [] => .ok []
  | c :: r =>
    if c = '\\' then
      match _h : unescapeCharacter r with
      | .err => .err
      | .errOrPanic => .errOrPanic
      | .ok v r' => (convertFromDouble r').cons v
    else if c = '"' then .err
    else if !isJSONChar c then .err
    else (convertFromDouble r).cons c
termination_by s.length
decreasing_by
  · have := unescapeCharacter_length _h; simp; omega
  · simp

end Verif.YamlChar
