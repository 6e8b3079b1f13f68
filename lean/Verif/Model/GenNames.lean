/-!
Model of the name tables of `generator/generator.go`: names of generated functions, import aliases.

Go strings which may stop being valid UTF-8 are lists of bytes here.
-/

namespace Verif.GenNames

/-- A Go string as bytes. -/
abbrev Bytes := List UInt8

/-- The bytes of a string of characters. -/
def utf8 (s : List Char) : Bytes := s.flatMap String.utf8EncodeChar

/-- The functions of the standard library which are not modelled. -/
structure Lib where
  /-- `unicode.IsLetter(r) || unicode.IsDigit(r)` -/
  isWord : Char → Bool
  /-- `strings.ToUpper` of a string of one rune -/
  upper : Char → List Char

/-- What the name of a function depends on: `t.PkgPath()`, `t.Name()` and `anonymousStructSuffix(t)`
(generator.go:355-368: the hash of the fields). -/
structure TypeInfo where
  pkgPath : List Char
  name : List Char
  anonymousSuffix : List Char
deriving DecidableEq, Repr

/-- generator.go:376-382: the first *byte* of the part is turned into a rune (`string(parts[i][0])`), which becomes upper
case. -/
def title (lib : Lib) (part : Bytes) : Bytes :=
  match part with
  | [] => []
  | b :: bs => utf8 (lib.upper (Char.ofNat b.toNat)) ++ bs

/-- generator.go:370-386 `joinFunctionNameParts`. -/
def join (lib : Lib) (keepFirst : Bool) (parts : List Bytes) : Bytes :=
  match parts with
  | [] => []
  | p :: ps => (if keepFirst then p else title lib p) ++ ps.flatMap (title lib)

/-- generator.go:336-350: the loop which splits a name at the runes which are neither letters nor digits; `cur` is
`singlePart`. -/
def splitWords (lib : Lib) : List Char → List Char → List (List Char)
  | [], cur => if cur.isEmpty then [] else [cur]
  | c :: cs, cur =>
    if lib.isWord c then splitWords lib cs (cur ++ [c])
    else if cur.isEmpty then splitWords lib cs []
    else cur :: splitWords lib cs []

/-- generator.go:328-353 `safeTypeName`. -/
def safeTypeName (lib : Lib) (t : TypeInfo) : Bytes :=
  let name :=
    if t.name.isEmpty then t.pkgPath ++ "anonymous".toList ++ t.anonymousSuffix else t.pkgPath ++ '.' :: t.name
  join lib false ((splitWords lib name []).map utf8)

/-- The two prefixes with which `generateFunctionName` is called (decoder.go:342-344, encoder.go:350-352). -/
inductive Prefix where
  | decode | encode
deriving DecidableEq, Repr

/-- generator.go:304: `joinFunctionNameParts(true, "yamly", prefix)`. -/
def Prefix.bytes : Prefix → Bytes
  | .decode => utf8 "yamlyDecode".toList
  | .encode => utf8 "yamlyEncode".toList

/-- generator.go:304-305: the name without a suffix. -/
def baseName (lib : Lib) (p : Prefix) (t : TypeInfo) : Bytes := join lib true [p.bytes, safeTypeName lib t]

/-- `strconv.Itoa` of a natural number, `fmt.Sprint` of an int. -/
def itoa (n : Nat) : Bytes :=
  if _h : n < 10 then [UInt8.ofNat (48 + n)] else itoa (n / 10) ++ [UInt8.ofNat (48 + n % 10)]
termination_by n
decreasing_by omega

section

variable {τ : Type} [DecidableEq τ]

/-- The map `funcNames`: every key occurs once. -/
abbrev FuncNames (τ : Type) := List (Bytes × τ)

/-- `g.funcNames[name]` -/
def ownerOf (m : FuncNames τ) (name : Bytes) : Option τ := m.lookup name

/-- generator.go:318-325: the suffix loop; `none` if the fuel does not suffice. -/
def suffixLoop (m : FuncNames τ) (name : Bytes) (t : τ) : Nat → Nat → Option (Bytes × FuncNames τ)
  | 0, _ => none
  | fuel + 1, i =>
    if (ownerOf m (name ++ itoa i)).isSome then suffixLoop m name t fuel (i + 1)
    else some (name ++ itoa i, (name ++ itoa i, t) :: m)

/-- generator.go:303-326 `generateFunctionName`; `base` is the name of generator.go:304-305.  A relation: the map is ranged
over in any order (line 312). -/
inductive FunctionName (m : FuncNames τ) (base : Bytes) (t : τ) : Bytes → FuncNames τ → Prop
  /-- 307-310, a new name -/
  | fresh : ownerOf m base = none → FunctionName m base t base ((base, t) :: m)
  /-- 307-310, a name known already -/
  | known : ownerOf m base = some t → FunctionName m base t base m
  /-- 312-316 -/
  | saved {t' name} : ownerOf m base = some t' → t' ≠ t → (name, t) ∈ m → base <+: name → FunctionName m base t name m
  /-- 318-325 -/
  | suffixed {t' fuel name m'} : ownerOf m base = some t' → t' ≠ t → (∀ name, (name, t) ∈ m → ¬ base <+: name) →
      suffixLoop m base t fuel 1 = some (name, m') → FunctionName m base t name m'

end

/-! ### imports -/

/-- The map `imports` from package paths to aliases: every path occurs once. -/
abbrev Imports := List (List Char × List Char)

/-- generator.go:278-284 `processVendoring`: what follows the last "/vendor/". -/
def processVendoring (path : List Char) : List Char :=
  match path with
  | [] => []
  | c :: cs =>
    let rest := processVendoring cs
    -- a later occurrence counts
    if rest.length < cs.length then rest
    else if "/vendor/".toList.isPrefixOf (c :: cs) then (c :: cs).drop "/vendor/".toList.length
    else c :: cs

/-- `filepath.Base` for a slash separated path: the last element. -/
def pathBase (path : List Char) : List Char :=
  let trimmed := (path.reverse.dropWhile (· = '/')).reverse
  if path.isEmpty then ['.']
  else if trimmed.isEmpty then ['/']
  else (trimmed.reverse.takeWhile (· ≠ '/')).reverse

/-- generator.go:270-276 `fixPkgAlias` (`alias[0]` of an empty string, a panic, cannot happen after `filepath.Base`). -/
def fixPkgAlias (alias : List Char) : List Char :=
  let alias := alias.map fun c => if c = '.' || c = '-' then '_' else c
  match alias with
  | 'v' :: _ => '_' :: alias
  | _ => alias

/-- `strconv.Itoa` as characters. -/
def itoaChars (n : Nat) : List Char :=
  if _h : n < 10 then [Char.ofNat (48 + n)] else itoaChars (n / 10) ++ [Char.ofNat (48 + n % 10)]
termination_by n
decreasing_by omega

/-- generator.go:250-253: the alias of the `i`-th attempt. -/
def candidate (alias : List Char) (i : Nat) : List Char := if i > 0 then alias ++ itoaChars i else alias

/-- generator.go:249-267: the loop of `pkgAlias`; `none` if the fuel does not suffice. -/
def aliasLoop (m : Imports) (path alias : List Char) : Nat → Nat → Option (List Char × Imports)
  | 0, _ => none
  | fuel + 1, i =>
    if m.any (fun e => e.2 = candidate alias i) then aliasLoop m path alias fuel (i + 1)
    else some (candidate alias i, (path, candidate alias i) :: m.filter (fun e => e.1 ≠ path))

/-- generator.go:242-268 `pkgAlias`. -/
def pkgAlias (m : Imports) (fuel : Nat) (path : List Char) : Option (List Char × Imports) :=
  let path := processVendoring path
  match m.lookup path with
  | some (c :: cs) => some (c :: cs, m)
  | _ => aliasLoop m path (fixPkgAlias (pathBase path)) fuel 0

/-- generator.go:52-59 `New`, 71-76 `SetEngineGenerator` with the packages of an engine. -/
def initialImports (packages : Imports) : Imports :=
  packages ++ [("github.com/KSpaceer/yamly".toList, "yamly".toList)]

/-- engines/yayamls/engine.go:14-31 `Packages`. -/
def yayamlsPackages : Imports :=
  [("github.com/KSpaceer/yamly/engines/yayamls".toList, "yayamls".toList),
    ("github.com/KSpaceer/yamly/engines/yayamls/decode".toList, "decode".toList),
    ("github.com/KSpaceer/yamly/engines/yayamls/encode".toList, "encode".toList)]

/-- engines/goyaml/engine.go:14-31 `Packages`. -/
def goyamlPackages : Imports :=
  [("gopkg.in/yaml.v3".toList, "yaml".toList),
    ("github.com/KSpaceer/yamly/engines/goyaml/decode".toList, "decode".toList),
    ("github.com/KSpaceer/yamly/engines/goyaml/encode".toList, "encode".toList)]

/-- A list sorted like `slices.Sort` does: insertion into a sorted list. -/
def insertSorted (a : List Char) : List (List Char) → List (List Char)
  | [] => [a]
  | b :: bs => if a ≤ b then a :: b :: bs else b :: insertSorted a bs

/-- `slices.Sort`. -/
def sortAliases (as : List (List Char)) : List (List Char) := as.foldr insertSorted []

/-- generator.go:171-183: the import clauses of the header, alias and path.  `byAlias` is the map of line 176: the map
`imports` is ranged over in some order, given by `m`; a later entry overwrites an earlier one. -/
def importClauses (m : Imports) : List (List Char × List Char) :=
  let byAlias (alias : List Char) : List Char := ((m.reverse.find? (fun e => e.2 = alias)).map (·.1)).getD []
  (sortAliases (m.map (·.2))).map fun alias => (alias, byAlias alias)

end Verif.GenNames
