import Verif.Model.ParserBlock

/-!
Model of `engines/yayamls/parser/documents.go` (documents and streams), of the recursion, and of the entry points in
`engines/yayamls/parser/parser.go`.
-/

namespace Verif.Parser

open Verif.Token Verif.Lexer Verif.Ast

variable {σ : Type} [TokenStream σ]

/-- The recursion: every production gets the productions with one unit of fuel less.  (flow.go:121 `parseFlowJSONContent`,
block.go:11 `parseBlockNode`, block.go:335 `parseBlockIndented`.) -/
def calls : Nat → Calls σ
  | 0 => ⟨fun _ _ => outOfFuel, fun _ _ => outOfFuel, fun _ _ => outOfFuel⟩
  | f + 1 => ⟨parseFlowJSONContent f (calls f).json, parseBlockNode f (calls f), parseBlockIndented f (calls f)⟩

/-- documents.go:173-175 `parseBareDocument`. -/
def parseBareDocument (f : Nat) : M σ Node := do
  let r ← (calls f).node ⟨-1, .strict⟩ .blockIn
  pure r.1

/-! ### Directives -/

/-- documents.go:208-231 `parseReservedDirective`. -/
def parseReservedDirective (f : Nat) : M σ Bool := do
  let e ← hasErrors
  if e then pure false else
  let t ← tok
  if t.type ≠ .string then pure false else do
  setRaw true
  next
  tries f (fun u => do
    let s ← parseSeparateInLine f
    if !s then pure (false, u) else
    let t ← tok
    if t.type ≠ .string then pure (false, u) else do
    next
    pure (true, u)) ()
  setRaw false
  pure true

/-- documents.go:309-318 `parseLocalTagPrefix`. -/
def parseLocalTagPrefix : M σ Bool := do
  let e ← hasErrors
  if e then pure false else
  let t ← tok
  if t.type ≠ .tag then pure false else do
  next
  let t ← tok
  if stringIn .uri t then do
    next
    pure true
  else pure true

/-- documents.go:284-306 `parseTagPrefix`.  (`Origin[:1]` is the first byte; it is in the set exactly if the first
character is.) -/
def parseTagPrefix : M σ Bool := do
  let e ← hasErrors
  if e then pure false else
  let l ← attempt id parseLocalTagPrefix
  if l then pure true else
  let t ← tok
  if t.type ≠ .string || t.origin.isEmpty then pure false else
  if !YamlChar.conformsCharSet (t.origin.take 1) .tag || !YamlChar.conformsCharSet t.origin .uri then pure false else do
  next
  pure true

/-- documents.go:234-251 `parseTagDirective`. -/
def parseTagDirective (f : Nat) : M σ Bool := do
  let e ← hasErrors
  if e then pure false else
  let s ← parseSeparateInLine f
  if !s then pure false else
  let h ← parseTagHandle
  if !h then pure false else do
  setRaw true
  let s ← parseSeparateInLine f
  let r ← if s then parseTagPrefix else pure false
  setRaw false
  pure r

/-- The first code points of the ranges of ten decimal digits in Go's `unicode.Digit` (Unicode 15), except for the range
1D7CE-1D7FF. -/
def digitRanges : List Nat :=
  [0x30, 0x660, 0x6F0, 0x7C0, 0x966, 0x9E6, 0xA66, 0xAE6, 0xB66, 0xBE6, 0xC66, 0xCE6, 0xD66, 0xDE6, 0xE50, 0xED0, 0xF20,
   0x1040, 0x1090, 0x17E0, 0x1810, 0x1946, 0x19D0, 0x1A80, 0x1A90, 0x1B50, 0x1BB0, 0x1C40, 0x1C50, 0xA620, 0xA8D0, 0xA900,
   0xA9D0, 0xA9F0, 0xAA50, 0xABF0, 0xFF10, 0x104A0, 0x10D30, 0x11066, 0x110F0, 0x11136, 0x111D0, 0x112F0, 0x11450,
   0x114D0, 0x11650, 0x116C0, 0x11730, 0x118E0, 0x11950, 0x11C50, 0x11D50, 0x11DA0, 0x11F50, 0x16A60, 0x16AC0, 0x16B50,
   0x1E140, 0x1E2F0, 0x1E4F0, 0x1E950, 0x1FBF0]

/-- Go's `unicode.IsDigit` (used in documents.go:354-366); nothing is proved which depends on the table. -/
def unicodeIsDigit (c : Char) : Bool :=
  (0x1D7CE ≤ c.toNat && c.toNat ≤ 0x1D7FF) || digitRanges.any (fun s => s ≤ c.toNat && c.toNat ≤ s + 9)

/-- documents.go:343-373 `isCorrectYAMLVersion`, one step; `none` is the early `return false`. -/
def versionStep (state : Nat) (c : Char) : Option Nat :=
  match state with
  | 0 => if unicodeIsDigit c then some 1 else none
  | 1 => if c = '.' then some 2 else if unicodeIsDigit c then some 1 else none
  | _ => if unicodeIsDigit c then some 3 else none

/-- documents.go:343-373 `isCorrectYAMLVersion`. -/
def isCorrectYAMLVersion (s : List Char) : Bool :=
  s.foldl (fun st c => st.bind (versionStep · c)) (some 0) = some 3

/-- documents.go:335-341 `parseYAMLVersion`. -/
def parseYAMLVersion : M σ Bool := do
  let e ← hasErrors
  if e then pure false else
  let t ← tok
  if t.type ≠ .string || !isCorrectYAMLVersion t.origin then pure false else do
  next
  pure true

/-- documents.go:321-332 `parseYAMLDirective`. -/
def parseYAMLDirective (f : Nat) : M σ Bool := do
  let e ← hasErrors
  if e then pure false else do
  skipWhile f isWhite
  parseYAMLVersion

/-- documents.go:178-205 `parseDirective`. -/
def parseDirective (f : Nat) : M σ Bool := do
  let e ← hasErrors
  if e then pure false else
  let t ← tok
  if t.type ≠ .directive then pure false else do
  setRaw true
  next
  setRaw false
  let t ← tok
  let d ← if t.origin = ['Y', 'A', 'M', 'L'] then do
      next
      parseYAMLDirective f
    else if t.origin = ['T', 'A', 'G'] then do
      next
      parseTagDirective f
    else parseReservedDirective f
  if !d then pure false else
  parseComments f

/-! ### Documents -/

/-- documents.go:149-170 `parseExplicitDocument`. -/
def parseExplicitDocument (f : Nat) : M σ Node := do
  let e ← hasErrors
  if e then pure .invalid else
  let t ← tok
  if t.type ≠ .directiveEnd then pure .invalid else do
  next
  let d ← attempt validNode (parseBareDocument f)
  if validNode d then pure d else
  let c ← attempt id (parseComments f)
  if c then pure .null else pure .invalid

/-- documents.go:131-146 `parseDirectiveDocument`. -/
def parseDirectiveDocument (f : Nat) : M σ Node := do
  let e ← hasErrors
  if e then pure .invalid else
  let d ← parseDirective f
  if !d then pure .invalid else do
  tries f (fun u => do
    let d ← parseDirective f
    pure (d, u)) ()
  parseExplicitDocument f

/-- documents.go:99-128 `parseAnyDocument`. -/
def parseAnyDocument (f : Nat) : M σ Node := do
  let e ← hasErrors
  if e then pure .invalid else
  let d ← attempt validNode (parseDirectiveDocument f)
  if validNode d then pure d else
  let d ← attempt validNode (parseExplicitDocument f)
  if validNode d then pure d else
  let d ← attempt validNode (parseBareDocument f)
  if validNode d then pure d else
  pure .invalid

/-- documents.go:404-413 `parseDocumentSuffix`. -/
def parseDocumentSuffix (f : Nat) : M σ Bool := do
  let e ← hasErrors
  if e then pure false else
  let t ← tok
  if t.type ≠ .documentEnd then pure false else do
  next
  parseComments f

/-- documents.go:387-395, the loop of `parseDocumentPrefix`; the result tells whether a comment line was found. -/
def prefixLines (f : Nat) (notNull : Bool) : M σ Bool :=
  tries f (fun b => do
    let c ← parseCommentLine f
    pure (c, b || c)) notNull

/-- documents.go:376-401 `parseDocumentPrefix`; `true` is a valid node which is not null (which is what the callers in
lines 15 and 89 ask). -/
def parseDocumentPrefix (f : Nat) : M σ Bool := do
  let e ← hasErrors
  if e then pure false else
  let t ← tok
  if t.type = .bom then do
    next
    prefixLines f true
  else prefixLines f false

/-- The loop over document prefixes (documents.go:13-20 and 87-94). -/
def prefixes (f : Nat) : M σ Unit :=
  tries f (fun u => do
    let b ← parseDocumentPrefix f
    pure (b, u)) ()

/-- documents.go:74-96 `parseSuffixesAndPrefixes`. -/
def parseSuffixesAndPrefixes (f : Nat) : M σ Bool := do
  let e ← hasErrors
  if e then pure false else
  let s ← parseDocumentSuffix f
  if !s then pure false else do
  tries f (fun u => do
    let s ← parseDocumentSuffix f
    pure (s, u)) ()
  prefixes f
  pure true

/-- A document which was found is appended to the list (documents.go:24-31, 37-44). -/
def addDocument (f : Nat) (docs : List Node) : M σ (List Node) := do
  let d ← attempt validNode (parseAnyDocument f)
  if validNode d then pure (docs ++ [d]) else pure docs

/-- documents.go:33-69, the body of the main loop of `parseStream`. -/
def streamStep (f : Nat) (docs : List Node) : M σ (Bool × List Node) := do
  let s ← attempt id (parseSuffixesAndPrefixes f)
  if s then do
    let docs ← addDocument f docs
    pure (true, docs)
  else do
    let t ← tok
    if t.type = .bom then do
      next
      pure (true, docs)
    else do
      let c ← attempt id (parseCommentLine f)
      if c then pure (true, docs) else
      let d ← attempt validNode (parseExplicitDocument f)
      if validNode d then pure (true, docs ++ [d]) else pure (false, docs)

/-- documents.go:12-72 `parseStream`. -/
def parseStream (f : Nat) : M σ Node := do
  prefixes f
  let docs ← addDocument f []
  let docs ← loop f (streamStep f) docs
  pure (.stream docs)

/-- `p.startOfLine = true` (parser.go:137). -/
def setStartOfLine : M σ Unit := fun p => .ok ((), { p with sol := true })

/-- parser.go:135-140 `Parse` on a parser. -/
def parse (f : Nat) : M σ Node := do
  next
  setStartOfLine
  parseStream f

/-! ### Entry points and pools -/

/-- parser.go:71-83 `newParser`. -/
def newParser (src : CPAccessor.Accessor σ Tok) (pool : List Buf) : P σ where
  src := src
  tok := {}
  saved := []
  sol := true
  errors := []
  bal := BalanceCheck.new BalanceCheck.parserPairs
  marks := []
  pool := pool

/-- What may lie in `accessorsPool` (token_source.go:29): `sync.Pool` holds values of any type.  `release` puts a pointer
to a pointer (`&ts.CheckpointingAccessor`, token_source.go:50), while `getCheckpointingAccessor` asks for a pointer
(token_source.go:32). -/
inductive PoolItem (σ : Type) where
  | pointer (a : CPAccessor.Accessor σ Tok)
  | pointerToPointer (a : CPAccessor.Accessor σ Tok)

/-- The global pools: `accessorsPool`, `parserPool` (parser.go:61) and `bufsPool` (parser.go:29-31). -/
structure Pools (σ : Type) where
  accessors : List (PoolItem σ)
  parsers : List (P σ)
  bufs : List Buf

/-- The pools at the start of the process. -/
def emptyPools : Pools σ := ⟨[], [], []⟩

/-- token_source.go:31-39 `getCheckpointingAccessor`. -/
def getAccessor (w : Pools σ) (s : σ) : CPAccessor.Accessor σ Tok × Pools σ :=
  match w.accessors with
  | [] => (CPAccessor.new s {}, w)
  | .pointer a :: rest => (CPAccessor.setStream a s, { w with accessors := rest })
  | .pointerToPointer _ :: rest => (CPAccessor.new s {}, { w with accessors := rest })

/-- parser.go:86-90 `ParseTokenStream`: the tree and the errors, and the pools afterwards (token_source.go:48-51
`release`). -/
def parseTokenStream (f : Nat) (s : σ) (w : Pools σ) : Res ((Node × List PErr) × Pools σ) :=
  match parse f (newParser (getAccessor w s).1 w.bufs) with
  | .timeout => .timeout
  | .panic => .panic
  | .ok (n, p) => .ok ((n, p.errors), { (getAccessor w s).2 with
      accessors := .pointerToPointer (CPAccessor.setStream p.src p.src.stream) :: (getAccessor w s).2.accessors
      bufs := p.pool })

/-- parser.go:93-98 `ParseTokens` and parser.go:128-132 `Parse`: in addition to the accessor, the parser goes into the
pool (parser.go:186-195 `release`). -/
def parseAndRelease (f : Nat) (s : σ) (w : Pools σ) : Res ((Node × List PErr) × Pools σ) :=
  match parse f (newParser (getAccessor w s).1 w.bufs) with
  | .timeout => .timeout
  | .panic => .panic
  | .ok (n, p) => .ok ((n, p.errors), { (getAccessor w s).2 with
      accessors := .pointerToPointer (CPAccessor.setStream p.src p.src.stream) :: (getAccessor w s).2.accessors
      parsers := { p with saved := [], bal := BalanceCheck.reset p.bal, marks := [], errors := [], sol := true, pool := [] }
        :: (getAccessor w s).2.parsers
      bufs := p.pool })

/-- Outcome of `ParseString`: the tree (`nil` if there is none) and the error (the empty list is `nil`). -/
structure Outcome where
  tree : Node
  err : List PErr

/-- parser.go:110-119: the tree of the outcome. -/
def finish (omitStream : Bool) (r : Node × List PErr) : Outcome :=
  if r.2.isEmpty then
    match omitStream, r.1 with
    | true, .stream [d] => ⟨d, []⟩
    | _, n => ⟨n, []⟩
  else ⟨.nil, r.2⟩

/-- parser.go:101-120 `ParseString` with a token stream `s` (the tokenizer of the source, or what the option
`WithTokenStreamConstructor` makes of it), and parser.go:123-125 `ParseBytes`. -/
def parseString (f : Nat) (omitStream : Bool) (s : σ) (w : Pools σ) : Res (Outcome × Pools σ) :=
  match parseTokenStream f s w with
  | .timeout => .timeout
  | .panic => .panic
  | .ok (r, w') => .ok (finish omitStream r, w')

end Verif.Parser
