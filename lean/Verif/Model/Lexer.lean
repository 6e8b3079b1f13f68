import Verif.Model.Token

/-!
Model of `engines/yayamls/lexer` (`tokenizer.go`, `context.go`, `rune_stream.go`).

Simplifications:
* The rune accessor `t.ra` (a checkpointing accessor over the rune stream) is represented by the runes which are
  not yet consumed.  The tokenizer uses it only through `Next` and through `lookahead`
  (`SetCheckpoint`, `count` times `Next`, `Rollback`); `Props/Lexer.lean: rune_accessor_refines` proves that these two
  operations on the accessor behave as `raNext` and `lookahead` below.
* `lookbehindTok` is represented by its type: all predicates passed to `lookbehind` look only at the type.
* The conformation bitmap of a token is left out (it is a cache, see C06).
* The source is a sequence of runes (`utf8.DecodeRune` turns invalid bytes into U+FFFD before the tokenizer sees
  them, rune_stream.go:22-29).
-/

namespace Verif.Lexer

open Verif.Token

/-- token.go:217-220 `Position`. -/
structure Pos where
  row : Nat
  col : Nat
deriving DecidableEq, Repr, Inhabited

/-- token.go:189-195 `Token`. -/
structure Tok where
  type : TokType := .unknown
  start : Pos := ⟨0, 0⟩
  fin : Pos := ⟨0, 0⟩
  origin : List Char := []
deriving DecidableEq, Repr, Inhabited

/-- context.go:8-18 `contextType`. -/
inductive CtxType where
  | block | flow | comment | multilineBlockStart | singleQuote | doubleQuote | tag
deriving DecidableEq, Repr

/-- context.go:22-26 `context`; the stack has its top first. -/
structure Ctx where
  stack : List CtxType
  escaped : Bool
  raw : Bool
deriving DecidableEq, Repr

/-- context.go:28-32 `newContext`. -/
def newCtx : Ctx := ⟨[], false, false⟩

namespace Ctx

/-- context.go:34-36 `setRawModeValue`. -/
def setRawModeValue (c : Ctx) (v : Bool) : Ctx := { c with raw := v }

/-- context.go:38-40 `switchContext`. -/
def switchContext (c : Ctx) (t : CtxType) : Ctx := { c with stack := t :: c.stack }

/-- context.go:42-47 `currentType`. -/
def currentType (c : Ctx) : CtxType :=
  match c.stack with
  | [] => .block
  | t :: _ => t

/-- context.go:49-53 `revertContext`. -/
def revertContext (c : Ctx) : Ctx := { c with stack := c.stack.tail }

/-- context.go:55-66 `whitespaceRevertContext` on the stack: pops tag contexts. -/
def popTags : List CtxType → List CtxType
  | .tag :: r => popTags r
  | s => s

/-- context.go:55-66 `whitespaceRevertContext`. -/
def whitespaceRevertContext (c : Ctx) : Ctx := { c with stack := popTags c.stack }

/-- context.go:68-82 `lineBreakRevertContext` on the stack: pops everything up to a block, flow or quote context. -/
def popLine : List CtxType → List CtxType
  | [] => []
  | .block :: r => .block :: r
  | .flow :: r => .flow :: r
  | .doubleQuote :: r => .doubleQuote :: r
  | .singleQuote :: r => .singleQuote :: r
  | _ :: r => popLine r

/-- context.go:68-82 `lineBreakRevertContext`. -/
def lineBreakRevertContext (c : Ctx) : Ctx := { c with stack := popLine c.stack }

end Ctx

/-- tokenizer.go:15-25 `Tokenizer`. -/
structure Lexer where
  rest : List Char
  ctx : Ctx
  pos : Pos
  behind : TokType
  prepared : Option Tok
deriving DecidableEq, Repr

/-- tokenizer.go:43-65 `NewTokenizer`. -/
def newTokenizer (src : List Char) : Lexer :=
  { rest := src, ctx := newCtx, pos := ⟨1, 0⟩, behind := .unknown, prepared := none }

/-- tokenizer.go:68-75 `SetRawMode`, `UnsetRawMode`. -/
def setRawMode (l : Lexer) (v : Bool) : Lexer := { l with ctx := l.ctx.setRawModeValue v }

/-- `t.ra.Next()`: the next rune, `none` is `EOF`. -/
def raNext (rest : List Char) : Option Char × List Char :=
  match rest with
  | [] => (none, [])
  | c :: r => (some c, r)

/-- The runes `lookahead(count, ..)` (tokenizer.go:127-136) hands to its predicate. -/
def lookahead : Nat → List Char → List (Option Char)
  | 0, _ => []
  | n + 1, rest => (raNext rest).1 :: lookahead n (raNext rest).2

/-- yamlchar/chars.go:266-278 `IsBlankChar` or `EOF`: the predicate of most lookaheads. -/
def blankOrEOF : Option Char → Bool
  | none => true
  | some c => c = ' ' || c = '\t' || c = '\n' || c = '\r'

/-- yamlchar/chars.go:185-192 `IsFlowIndicatorChar`. -/
def isFlowIndicatorChar (c : Char) : Bool := c = ',' || c = '[' || c = ']' || c = '{' || c = '}'

/-- lookahead of one rune at a blank or EOF (context.go:113-115 and others). -/
def blankAhead (l : Lexer) : Bool :=
  match lookahead 1 l.rest with
  | [r] => blankOrEOF r
  | _ => false

/-- lookahead of three runes at two times `c` and a blank or EOF (context.go:124-127, 231-234). -/
def tripleAhead (c : Char) (l : Lexer) : Bool :=
  match lookahead 3 l.rest with
  | [a, b, d] => a = b && b = some c && blankOrEOF d
  | _ => false

/-- a special token consisting of the current rune only (the pattern
`tok.End = t.pos; tok.Type = ..; tok.Origin = string([]rune{r})`). -/
def single (l : Lexer) (ty : TokType) (r : Char) : Option Tok × Lexer :=
  (some { type := ty, start := l.pos, fin := l.pos, origin := [r] }, l)

/-- the same after `c.switchContext`. -/
def singleSwitch (l : Lexer) (ty : TokType) (r : Char) (cx : CtxType) : Option Tok × Lexer :=
  single { l with ctx := l.ctx.switchContext cx } ty r

/-- the same after `c.revertContext`. -/
def singleRevert (l : Lexer) (ty : TokType) (r : Char) : Option Tok × Lexer :=
  single { l with ctx := l.ctx.revertContext } ty r

/-- a special token consisting of the current rune and two more (context.go:128-132, 235-239). -/
def triple (l : Lexer) (ty : TokType) (r : Char) : Option Tok × Lexer :=
  let p : Pos := { l.pos with col := l.pos.col + 2 }
  (some { type := ty, start := l.pos, fin := p, origin := r :: l.rest.take 2 },
    { l with rest := l.rest.drop 2, pos := p })

/-- context.go:442-491 `baseMatching`. -/
def baseMatching (l : Lexer) (r : Option Char) : Option Tok × Lexer :=
  match r with
  | none => (some { type := .eof, start := l.pos, fin := l.pos, origin := [] }, l)
  | some '\uFEFF' => single l .bom '\uFEFF'
  | some '\r' =>
    let l1 := { l with ctx := l.ctx.lineBreakRevertContext }
    match lookahead 1 l1.rest with
    | [some '\n'] =>
      let p : Pos := { l1.pos with col := l1.pos.col + 1 }
      (some { type := .lineBreak, start := l.pos, fin := p, origin := ['\r', '\n'] },
        { l1 with rest := l1.rest.drop 1, pos := ⟨p.row + 1, 0⟩ })
    | _ =>
      (some { type := .lineBreak, start := l.pos, fin := l1.pos, origin := ['\r'] },
        { l1 with pos := ⟨l1.pos.row + 1, 0⟩ })
  | some '\n' =>
    let l1 := { l with ctx := l.ctx.lineBreakRevertContext }
    (some { type := .lineBreak, start := l.pos, fin := l1.pos, origin := ['\n'] },
      { l1 with pos := ⟨l1.pos.row + 1, 0⟩ })
  | some ' ' => single { l with ctx := l.ctx.whitespaceRevertContext } .space ' '
  | some '\t' => single { l with ctx := l.ctx.whitespaceRevertContext } .tab '\t'
  | some _ => (none, l)

/-- context.go:109-243 `blockMatching`. -/
def blockMatching (l : Lexer) (r : Option Char) : Option Tok × Lexer :=
  match r with
  | some '-' =>
    if blankAhead l && l.behind.mayPrecedeWord then single l .sequenceEntry '-'
    else if tripleAhead '-' l && l.behind.mayPrecedeWord then triple l .directiveEnd '-'
    else baseMatching l r
  | some '?' => if blankAhead l && l.behind.mayPrecedeWord then single l .mappingKey '?' else baseMatching l r
  | some ':' => if blankAhead l then single l .mappingValue ':' else baseMatching l r
  | some '[' => if l.behind.mayPrecedeWord then singleSwitch l .sequenceStart '[' .flow else baseMatching l r
  | some '{' => if l.behind.mayPrecedeWord then singleSwitch l .mappingStart '{' .flow else baseMatching l r
  | some '#' => if l.behind.mayPrecedeWord then singleSwitch l .comment '#' .comment else baseMatching l r
  | some '&' => if l.behind.mayPrecedeWord then single l .anchor '&' else baseMatching l r
  | some '*' => if l.behind.mayPrecedeWord then single l .alias '*' else baseMatching l r
  | some '!' => singleSwitch l .tag '!' .tag
  | some '|' =>
    if l.behind.mayPrecedeWord then singleSwitch l .literal '|' .multilineBlockStart else baseMatching l r
  | some '>' =>
    if l.behind.mayPrecedeWord then singleSwitch l .folded '>' .multilineBlockStart else baseMatching l r
  | some '\'' => singleSwitch l .singleQuote '\'' .singleQuote
  | some '"' => singleSwitch l .doubleQuote '"' .doubleQuote
  | some '%' => single l .directive '%'
  | some '.' =>
    if tripleAhead '.' l && l.behind.mayPrecedeWord then triple l .documentEnd '.' else baseMatching l r
  | _ => baseMatching l r

/-- context.go:349-351 `mayPrecedeWordInFlow`. -/
def mayPrecedeWordInFlow (t : TokType) : Bool := t.mayPrecedeWord || t.isOpeningFlowIndicator

/-- the predicate `canBeAdjacent` of context.go:259-262. -/
def canBeAdjacent (t : TokType) : Bool :=
  t.isClosingFlowIndicator || t = .doubleQuote || t = .singleQuote

/-- lookahead of one rune at a blank, a flow indicator or EOF (context.go:264-266). -/
def blankOrFlowAhead (l : Lexer) : Bool :=
  match lookahead 1 l.rest with
  | [r] => blankOrEOF r || (match r with | some c => isFlowIndicatorChar c | none => false)
  | _ => false

/-- context.go:245-347 `flowMatching`. -/
def flowMatching (l : Lexer) (r : Option Char) : Option Tok × Lexer :=
  match r with
  | some '?' =>
    if blankAhead l && mayPrecedeWordInFlow l.behind then single l .mappingKey '?' else baseMatching l r
  | some ':' =>
    if blankOrFlowAhead l || canBeAdjacent l.behind then single l .mappingValue ':' else baseMatching l r
  | some '[' =>
    if mayPrecedeWordInFlow l.behind then singleSwitch l .sequenceStart '[' .flow else baseMatching l r
  | some '{' =>
    if mayPrecedeWordInFlow l.behind then singleSwitch l .mappingStart '{' .flow else baseMatching l r
  | some ']' => singleRevert l .sequenceEnd ']'
  | some '}' => singleRevert l .mappingEnd '}'
  | some '&' => if mayPrecedeWordInFlow l.behind then single l .anchor '&' else baseMatching l r
  | some '*' => if mayPrecedeWordInFlow l.behind then single l .alias '*' else baseMatching l r
  | some '!' => singleSwitch l .tag '!' .tag
  | some '\'' =>
    if mayPrecedeWordInFlow l.behind || l.behind = .mappingValue then
      singleSwitch l .singleQuote '\'' .singleQuote
    else baseMatching l r
  | some '"' =>
    if mayPrecedeWordInFlow l.behind || l.behind = .mappingValue then
      singleSwitch l .doubleQuote '"' .doubleQuote
    else baseMatching l r
  | some ',' => single l .collectEntry ','
  | _ => baseMatching l r

/-- context.go:353-355 `commentMatching`. -/
def commentMatching (l : Lexer) (r : Option Char) : Option Tok × Lexer := baseMatching l r

/-- context.go:357-380 `multilineBlockStartMatching`. -/
def multilineBlockStartMatching (l : Lexer) (r : Option Char) : Option Tok × Lexer :=
  match r with
  | some '-' => single l .stripChomping '-'
  | some '+' => single l .keepChomping '+'
  | some '#' => if l.behind.mayPrecedeWord then singleSwitch l .comment '#' .comment else baseMatching l r
  | _ => baseMatching l r

/-- `c.escaped = v`. -/
def setEscaped (l : Lexer) (v : Bool) : Lexer := { l with ctx := { l.ctx with escaped := v } }

/-- the lookahead predicate of context.go:386-388. -/
def noQuoteAhead (l : Lexer) : Bool :=
  match lookahead 1 l.rest with
  | [r] => r ≠ some '\''
  | _ => false

/-- context.go:382-399 `singleQuoteMatching`. -/
def singleQuoteMatching (l : Lexer) (r : Option Char) : Option Tok × Lexer :=
  if r = some '\'' then
    if !l.ctx.escaped && noQuoteAhead l then singleRevert l .singleQuote '\''
    else baseMatching (setEscaped l (!l.ctx.escaped)) r
  else baseMatching (setEscaped l false) r

/-- context.go:401-425 `doubleQuoteMatching`. -/
def doubleQuoteMatching (l : Lexer) (r : Option Char) : Option Tok × Lexer :=
  match r with
  | some '\\' => baseMatching (setEscaped l (!l.ctx.escaped)) r
  | some ' ' =>
    if l.ctx.escaped then (none, setEscaped l false) else baseMatching (setEscaped l false) r
  | some '"' =>
    if !l.ctx.escaped then singleRevert l .doubleQuote '"' else baseMatching (setEscaped l false) r
  | _ => baseMatching (setEscaped l false) r

/-- context.go:427-436 `tagMatching`. -/
def tagMatching (l : Lexer) (r : Option Char) : Option Tok × Lexer :=
  match r with
  | some '!' => single l .tag '!'
  | _ => baseMatching l r

/-- context.go:438-440 `rawMatching`. -/
def rawMatching (l : Lexer) (r : Option Char) : Option Tok × Lexer := baseMatching l r

/-- context.go:84-107 `matchSpecialToken`. -/
def matchSpecialToken (l : Lexer) (r : Option Char) : Option Tok × Lexer :=
  if l.ctx.raw then rawMatching l r
  else
    match l.ctx.currentType with
    | .block => blockMatching l r
    | .flow => flowMatching l r
    | .comment => commentMatching l r
    | .multilineBlockStart => multilineBlockStartMatching l r
    | .singleQuote => singleQuoteMatching l r
    | .doubleQuote => doubleQuoteMatching l r
    | .tag => tagMatching l r

/-- The loop of tokenizer.go:92-123.  `str` is the string token under construction (start and runes so far), `none` as
long as `tok.Type == UnknownType`.  The result is `none` if the fuel does not suffice, or if `EOF` is not matched as a
special token (the Go loop would then append `EOF` to the string forever). -/
def emitLoop : Nat → Lexer → Option (Pos × List Char) → Option (Tok × Lexer)
  | 0, _, _ => none
  | fuel + 1, l, str =>
    -- lines 94-97
    let r := (raNext l.rest).1
    let l1 := { l with rest := (raNext l.rest).2, pos := { l.pos with col := l.pos.col + 1 } }
    let curPos := l1.pos
    match matchSpecialToken l1 r with
    | (some special, l2) =>
      match str with
      | some (start, runes) =>
        -- lines 101-109
        some ({ type := .string, start := start, fin := { curPos with col := curPos.col - 1 }, origin := runes },
          { l2 with prepared := some special })
      | none =>
        -- lines 110-113
        some (special, { l2 with behind := special.type })
    | (none, l2) =>
      match r with
      | none => none
      | some c =>
        -- lines 117-122
        match str with
        | none => emitLoop fuel { l2 with behind := .string } (some (curPos, [c]))
        | some (start, runes) => emitLoop fuel l2 (some (start, runes ++ [c]))

/-- tokenizer.go:89-125 `emitToken`. -/
def emitToken (fuel : Nat) (l : Lexer) : Option (Tok × Lexer) := emitLoop fuel l none

/-- tokenizer.go:78-87 `Next`. -/
def nextFuel (fuel : Nat) (l : Lexer) : Option (Tok × Lexer) :=
  match l.prepared with
  | some tok => some (tok, { l with behind := tok.type, prepared := none })
  | none => emitToken fuel l

end Verif.Lexer
