/-!
Model of the parts of `cmd/yamlygen/main.go` which choose the name of the output file.

`unicode.IsUpper`, `unicode.IsLower` and `unicode.ToLower` are parameters.  Paths are those of Unix.  Not modelled: flags, the
working directory, the choice of the engine (two constants).
-/

namespace Verif.Cmd

/-- The functions of package unicode called in main.go:146-167. -/
structure Lib where
  isUpper : Char → Bool
  isLower : Char → Bool
  toLower : Char → Char

/-- The rune 0. -/
def zero : Char := Char.ofNat 0

/-- main.go:147-160: the body of the loop; what is appended. -/
def emit (lib : Lib) (prev cur next : Char) : List Char :=
  if cur = '_' then (if prev ≠ '_' then ['_'] else [])
  else if lib.isUpper cur then
    (if lib.isLower prev || (lib.isUpper prev && lib.isLower next) then ['_'] else []) ++ [lib.toLower cur]
  else if cur ≠ zero then [lib.toLower cur]
  else []

/-- main.go:146-168: the loop and what comes after it, with at least one rune seen. -/
def loop (lib : Lib) (prev cur : Char) : List Char → List Char
  | [] => (if lib.isUpper cur && lib.isLower prev && decide (prev ≠ zero) then ['_'] else []) ++ [lib.toLower cur]
  | next :: s => emit lib prev cur next ++ loop lib cur next s

/-- main.go:143-170 `toSnakeCase`. -/
def toSnakeCase (lib : Lib) (src : List Char) : List Char :=
  match src with
  | [] => []
  | c :: s => emit lib zero zero c ++ loop lib zero c s

/-- `filepath.Base` on Unix, called at main.go:102: trailing slashes are dropped, then everything up to the last slash. -/
def base (path : List Char) : List Char :=
  if path = [] then ['.']
  else
    let p := (path.reverse.dropWhile (· = '/')).takeWhile (· ≠ '/')
    if p = [] then ['/'] else p.reverse

/-- main.go:95-104: the name of the output file; `none` is the error.  `output` is the flag of this name. -/
def outputName (lib : Lib) (output type : List Char) : Option (List Char) :=
  let name := if output ≠ [] then output else toSnakeCase lib type ++ "_yamly.go".toList
  if base name ≠ name then none else some name

end Verif.Cmd
