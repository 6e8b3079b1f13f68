import Verif.Model.Bootstrap

/-!
Model of generator/bootstrap/generator.go `generateMain`: the text of the temporary program which runs the generator.

Simplified: `strconv.IsPrint` is a parameter, `filepath.Base(g.OutputName)` is a setting, `g.EngineGenerator` has no percent sign in
it (line 95 uses it as a part of a format; it is one of two constants).  Not modelled: the temporary file.
-/

namespace Verif.Bootstrap

/-- bootstrap/generator.go:17-33: the settings used for the program. -/
structure MainConfig where
  pkgPath : List Char
  pkgName : List Char
  type : List Char
  omitempty : Bool
  disallowUnknownFields : Bool
  encodePointerReceiver : Bool
  inlineEmbedded : Bool
  enginePackage : List Char
  engine : List Char
  output : List Char
  buildTags : List Char

/-- `strconv` `lowerhex`. -/
def lowerHex (d : Nat) : Char := if d < 10 then Char.ofNat (48 + d) else Char.ofNat (87 + d)

/-- `k` digits of a number, as in `strconv` `appendEscapedRune` (the loops over `s`). -/
def hexDigits : Nat → Nat → List Char
  | 0, _ => []
  | k + 1, n => lowerHex (n / 16 ^ k % 16) :: hexDigits k n

/-- `strconv` `appendEscapedRune` with the quote `"`, on valid runes. -/
def quoteChar (isPrint : Char → Bool) (c : Char) : List Char :=
  if c = '"' ∨ c = '\\' then ['\\', c]
  else if isPrint c then [c]
  else if c.toNat = 7 then ['\\', 'a']
  else if c.toNat = 8 then ['\\', 'b']
  else if c.toNat = 12 then ['\\', 'f']
  else if c = '\n' then ['\\', 'n']
  else if c = '\r' then ['\\', 'r']
  else if c = '\t' then ['\\', 't']
  else if c.toNat = 11 then ['\\', 'v']
  else if c.toNat < 32 ∨ c.toNat = 127 then '\\' :: 'x' :: hexDigits 2 c.toNat
  else if c.toNat < 0x10000 then '\\' :: 'u' :: hexDigits 4 c.toNat
  else '\\' :: 'U' :: hexDigits 8 c.toNat

/-- `strconv.Quote`, the verb `%q` on strings. -/
def quote (isPrint : Char → Bool) (s : List Char) : List Char := '"' :: (s.flatMap (quoteChar isPrint) ++ ['"'])

/-- The verb `%t`. -/
def boolText (b : Bool) : List Char := if b then "true".toList else "false".toList

/-- bootstrap/generator.go:72-109: the lines of the program, without their line feeds. -/
def mainLines (isPrint : Char → Bool) (c : MainConfig) : List (List Char) :=
  let q := quote isPrint
  [ "//go:build yamly".toList,
    [],
    "// TEMPORARY AUTOGENERATED FILE: yamly bootstrap code to ".toList,
    "// launch the actual generator".toList,
    [],
    "package main".toList,
    [],
    "import (".toList,
    "  \"fmt\"".toList,
    "  \"os\"".toList,
    [],
    " generator ".toList ++ q "github.com/KSpaceer/yamly/generator".toList,
    [],
    " engine ".toList ++ q c.enginePackage,
    [],
    "  pkg ".toList ++ q c.pkgPath,
    ")".toList,
    "func main() {".toList,
    "  g := generator.New(".toList ++ q c.output ++ [')'],
    "  g.SetPkgName(".toList ++ q c.pkgName ++ [')'],
    "  g.SetPkgPath(".toList ++ q c.pkgPath ++ [')'],
    "  g.SetEngineGenerator(engine.".toList ++ c.engine ++ [')'] ] ++
  (if c.buildTags ≠ [] then ["  g.SetBuildTags(".toList ++ q c.buildTags ++ [')']] else []) ++
  [ "  g.SetOmitempty(".toList ++ boolText c.omitempty ++ [')'],
    "  g.SetDisallowUnknownFields(".toList ++ boolText c.disallowUnknownFields ++ [')'],
    "  g.SetEncodePointerReceiver(".toList ++ boolText c.encodePointerReceiver ++ [')'],
    "  g.SetInlineEmbedded(".toList ++ boolText c.inlineEmbedded ++ [')'],
    "  g.AddType(pkg.Exporter_yamly_".toList ++ c.type ++ "(nil))".toList,
    "  if err := g.Generate(os.Stdout); err != nil {".toList,
    "    fmt.Fprintln(os.Stderr, err)".toList,
    "    os.Exit(1)".toList,
    "  }".toList,
    "}".toList ]

/-- bootstrap/generator.go:66-118 `generateMain`: the text of the program. -/
def mainText (isPrint : Char → Bool) (c : MainConfig) : List Char := (mainLines isPrint c).flatMap (· ++ ['\n'])

end Verif.Bootstrap
