/-!
Model of `generator/parser`: the name and the import path of the package in a directory.

Paths are those of Unix.  `path.Clean`, `Join`, `Dir` and `Rel` (equal in `path` and `path/filepath` there) follow their
documentation.  Parameters: the answer of `go env GOMOD`, the content of files, `unicode.IsSpace`, `strconv.Unquote`.  The cache
in pkgpath.go:48-53 is left out: a process asks once (main.go:87).
-/

namespace Verif.PkgPath

abbrev Str := List Char

/-- The functions which are not modelled. -/
structure Lib where
  /-- `unicode.IsSpace` -/
  isSpace : Char → Bool
  /-- `strconv.Unquote`; `none` is an error -/
  unquote : Str → Option Str

/-- The parts of a text between the occurrences of a character (`strings.Split`). -/
def split (sep : Char) : Str → List Str
  | [] => [[]]
  | c :: s =>
    if c = sep then [] :: split sep s
    else
      match split sep s with
      | [] => [[c]]
      | w :: ws => (c :: w) :: ws

/-- The parts with a separator between them. -/
def join (sep : Char) (ws : List Str) : Str := (ws.intersperse [sep]).flatten

/-- The elements of a clean path; `acc` has those before, in reverse order. -/
def cleanElems (rooted : Bool) : List Str → List Str → List Str
  | [], acc => acc.reverse
  | w :: ws, acc =>
    if w = [] ∨ w = ['.'] then cleanElems rooted ws acc
    else if w = ['.', '.'] then
      match acc with
      | [] => if rooted then cleanElems rooted ws [] else cleanElems rooted ws [['.', '.']]
      | a :: acc => if a = ['.', '.'] then cleanElems rooted ws (['.', '.'] :: a :: acc) else cleanElems rooted ws acc
    else cleanElems rooted ws (w :: acc)

/-- `path.Clean`, `filepath.Clean`. -/
def clean (p : Str) : Str :=
  if p = [] then ['.']
  else if p.head? = some '/' then '/' :: join '/' (cleanElems true (split '/' p) [])
  else
    let ws := cleanElems false (split '/' p) []
    if ws = [] then ['.'] else join '/' ws

/-- `path.Join`, `filepath.Join` of two paths. -/
def join2 (a b : Str) : Str :=
  if a = [] then (if b = [] then [] else clean b) else if b = [] then clean a else clean (a ++ '/' :: b)

/-- `path.Dir`, `filepath.Dir`: the path up to the last slash. -/
def dir (p : Str) : Str := clean (p.reverse.dropWhile (· ≠ '/')).reverse

/-- The parts of two lists after their common beginning. -/
def apart : List Str → List Str → List Str × List Str
  | a :: as, b :: bs => if a = b then apart as bs else (a :: as, b :: bs)
  | as, bs => (as, bs)

/-- `filepath.Rel` for absolute targets; `none` is an error. -/
def rel (base targ : Str) : Option Str :=
  if (clean base).head? ≠ some '/' then none
  else
    match apart (cleanElems true (split '/' base) []) (cleanElems true (split '/' targ) []) with
    | ([], []) => some ['.']
    | (as, bs) => some (join '/' (as.map (fun _ => ['.', '.']) ++ bs))

/-- `strings.TrimPrefix`. -/
def trimPrefix (s pre : Str) : Str := if pre.isPrefixOf s then s.drop pre.length else s

/-- `strings.Contains`. -/
def contains (s sub : Str) : Bool :=
  match s with
  | [] => sub.isEmpty
  | _ :: t => sub.isPrefixOf s || contains t sub

/-- `bytes.TrimSpace`. -/
def trimSpace (lib : Lib) (s : Str) : Str := ((s.dropWhile lib.isSpace).reverse.dropWhile lib.isSpace).reverse

/-- modulepath.go:57-59: the part of a line before a comment. -/
def uncomment : Str → Str
  | '/' :: '/' :: _ => []
  | c :: s => c :: uncomment s
  | [] => []

/-- modulepath.go:51-80: the loop over the lines; the code takes one line after the other from the text, a line break at the
end gives no further line. -/
def moduleLoop (lib : Lib) : List Str → Str
  | [] => []
  | line :: rest =>
    let line := trimSpace lib (uncomment line)
    if !("module".toList.isPrefixOf line) then moduleLoop lib rest
    else
      let line' := trimSpace lib (line.drop 6)
      if line'.length = (line.drop 6).length ∨ line'.length = 0 then moduleLoop lib rest
      else if line'.head? = some '"' ∨ line'.head? = some '`' then (lib.unquote line').getD []
      else line'

/-- modulepath.go:50-82 `modulePath`. -/
def modulePath (lib : Lib) (mod : Str) : Str := moduleLoop lib (split '\n' mod)

/-- pkgpath.go:119-121 `filePathToPackagePath`: the identity on Unix. -/
def filePathToPackagePath (p : Str) : Str := p

/-- What is asked of the system: pkgpath.go:17, 33-36, 80 and 96-113. -/
structure Env where
  /-- the working directory -/
  cwd : Str
  /-- the output of `go env GOMOD` in a directory, trimmed; empty after an error -/
  goMod : Str → Str
  /-- the content of a file; `none` is an error -/
  file : Str → Option Str
  /-- the environment variable or its default -/
  gopath : Str

/-- pkgpath.go:55-64 `pkgPathFromGoMod`, with 66-86 `getModulePath`. -/
def pkgPathFromGoMod (lib : Lib) (env : Env) (dirPath goModPath : Str) : Option Str :=
  let modulePath := ((env.file goModPath).map (modulePath lib)).getD []
  if modulePath = [] then none
  else some (clean (join2 modulePath (filePathToPackagePath (trimPrefix dirPath (dir goModPath)))))

/-- pkgpath.go:38-44: the loop over the entries of GOPATH. -/
def gopathLoop (dirPath : Str) : List Str → Option Str
  | [] => none
  | p :: ps =>
    match rel (join2 p "src".toList ++ ['/']) dirPath with
    | some r => if !("../".toList.isPrefixOf r) then some (dir (filePathToPackagePath r)) else gopathLoop dirPath ps
    | none => gopathLoop dirPath ps

/-- pkgpath.go:32-46 `pkgPathFromGOPATH`. -/
def pkgPathFromGOPATH (env : Env) (dirPath : Str) : Option Str := gopathLoop dirPath (split ':' env.gopath)

/-- pkgpath.go:15-30 `findPkgPath`, with 115-117 `isGoModFile`; `none` is an error. -/
def findPkgPath (lib : Lib) (env : Env) (dirPath : Str) : Option Str :=
  let dirPath := if dirPath.head? = some '/' then dirPath else join2 env.cwd dirPath
  let goModPath := env.goMod dirPath
  if contains goModPath "go.mod".toList then pkgPathFromGoMod lib env dirPath goModPath else pkgPathFromGOPATH env dirPath

/-- parser.go:35-37, 41-52: `packages` are the names of the packages found, in the order in which the map is iterated; the name
of a package in the map is that of its files.  The field is empty before. -/
def pkgName (packages : List Str) : Str := packages.foldl (fun _ n => n) []

end Verif.PkgPath
