import Verif.Model.Ast
import Verif.Model.BalanceCheck
import Verif.Model.CPAccessor
import Verif.Model.Lexer
import Verif.Model.Res
import Verif.Model.YamlChar

/-!
Model of `engines/yayamls/parser`: the state of the parser, the token source and the elementary steps.

Conventions of the whole parser model:
* A method of `*parser` is a function into `M σ α`, which is state passing over `Res`: a panic and missing fuel are
  explicit outcomes.  The fuel `f` bounds the iterations of loops and the depth of the recursion.
* A method whose node result is only ever tested with `ast.ValidNode` returns `Bool` (`true` for a valid node).
* An argument `ind *indentation` is mutable: the function takes the value and returns the new one.  The same holds for
  `buf *bytes.Buffer`, whose content is a list of characters (`Len` counts characters instead of bytes; `Truncate` is
  only used with earlier values of `Len`).
* `p.tok.ConformsCharSet` caches its result in the token (C06 proves that the cache has no influence), the cache is left
  out.
-/

namespace Verif.Parser

open Verif.Token Verif.Lexer Verif.Ast

/-- token_source.go:19-22 `ConfigurableTokenStream`: `cpaccessor.ResourceStream` (accessor.go:5-7) and `RawTokenModer`
(token_source.go:12-15). -/
class TokenStream (σ : Type) where
  pull : σ → Tok × σ
  setRaw : Bool → σ → σ

/-- tokenizer.go:78-87 `Next` with sufficient fuel (`Lemmas/ParserEntry.lean: lexNext_some` proves that the last case does not
happen). -/
def lexNext (l : Lexer) : Tok × Lexer :=
  match nextFuel (l.rest.length + 1) l with
  | some r => r
  | none => ({}, l)

/-- parser.go:107-109: the tokenizer as token stream. -/
instance : TokenStream Lexer where
  pull := lexNext
  setRaw v l := setRawMode l v

/-- token_source.go:53-56 `simpleTokenStream`: the tokens from `index` on. -/
structure SimpleStream where
  rest : List Tok

/-- token_source.go:65-76 the methods of `simpleTokenStream`. -/
instance : TokenStream SimpleStream where
  pull s :=
    match s.rest with
    | [] => ({ type := .eof }, s)
    | t :: r => (t, ⟨r⟩)
  setRaw _ s := s

/-- parser.go:17-27 `context`. -/
inductive PCtx where
  | none | blockIn | blockOut | blockKey | flowIn | flowOut | flowKey
deriving DecidableEq, Repr

/-- parser.go:33-39 `indentationMode`. -/
inductive IndMode where
  | unknown | strict | lowerBound
deriving DecidableEq, Repr

/-- parser.go:41-44 `indentation`. -/
structure Ind where
  value : Int
  mode : IndMode
deriving DecidableEq, Repr

/-- errors.go:45-113, the errors which the parser reports. -/
inductive PErr where
  | unbalancedClosing (tok : Tok)
  | unbalancedOpening (ptype : Option TokType) (pos : Pos)
  | tag (src : List Char) (pos : Pos)
  | deadEnd (pos : Pos)
deriving DecidableEq, Repr

/-- parser.go:56-59 `state`, as saved at a checkpoint. -/
structure Saved where
  sol : Bool
  memento : BalanceCheck.Memento
deriving DecidableEq, Repr

/-- Content of a `bytes.Buffer`. -/
abbrev Buf := List Char

/-- parser.go:46-54 `parser`.

* `src` is the checkpointing accessor of `tokSrc`; the raw mode of the stream is part of the state of the stream.
* `sol` is `startOfLine`; `saved` is `savedStates`, innermost first.
* `marks` is the map of the dead end finder (finder.go:9-11), a missing position has count 0.
* `pool` are the buffers in the global `bufsPool` (parser.go:29-31). -/
structure P (σ : Type) where
  src : CPAccessor.Accessor σ Tok
  tok : Tok
  saved : List Saved
  sol : Bool
  errors : List PErr
  bal : BalanceCheck.Checker TokType
  marks : List (Pos × Int)
  pool : List Buf

/-- A step of the parser. -/
def M (σ α : Type) := P σ → Res (α × P σ)

variable {σ α β : Type}

/-- Return of a value. -/
def M.pure (a : α) : M σ α := fun p => .ok (a, p)

/-- Sequencing. -/
def M.bind (m : M σ α) (k : α → M σ β) : M σ β := fun p =>
  match m p with
  | .timeout => .timeout
  | .panic => .panic
  | .ok (a, q) => k a q

instance : Monad (M σ) where
  pure := M.pure
  bind := M.bind

/-- Not enough fuel. -/
def outOfFuel : M σ α := fun _ => .timeout

/-- The current token, `p.tok`. -/
def tok : M σ Tok := fun p => .ok (p.tok, p)

/-- `p.startOfLine`. -/
def startOfLine : M σ Bool := fun p => .ok (p.sol, p)

/-- parser.go:178-180 `hasErrors`. -/
def hasErrors : M σ Bool := fun p => .ok (!p.errors.isEmpty, p)

/-- parser.go:174-176 `appendError`. -/
def appendError (e : PErr) : M σ Unit := fun p => .ok ((), { p with errors := p.errors ++ [e] })

/-- parser.go:163-172 `isStartOfLine`. -/
def isStartOfLine (sol : Bool) (t : Tok) : Bool :=
  match t.type with
  | .lineBreak => true
  | .bom => sol
  | _ => false

/-- parser.go:145-160: bookkeeping of parentheses for the token which was read. -/
def balance (p : P σ) : P σ :=
  match p.tok.type with
  | .eof =>
    if BalanceCheck.isBalanced p.bal then p
    else { p with errors := p.errors ++ [.unbalancedOpening (BalanceCheck.peekLastUnbalanced p.bal) p.tok.start] }
  | .mappingStart => { p with bal := (BalanceCheck.add p.bal p.tok.type).2 }
  | .sequenceStart => { p with bal := (BalanceCheck.add p.bal p.tok.type).2 }
  | .singleQuote => { p with bal := (BalanceCheck.add p.bal p.tok.type).2 }
  | .doubleQuote => { p with bal := (BalanceCheck.add p.bal p.tok.type).2 }
  | .mappingEnd =>
    if (BalanceCheck.add p.bal p.tok.type).1 then { p with bal := (BalanceCheck.add p.bal p.tok.type).2 }
    else { p with bal := (BalanceCheck.add p.bal p.tok.type).2, errors := p.errors ++ [.unbalancedClosing p.tok] }
  | .sequenceEnd =>
    if (BalanceCheck.add p.bal p.tok.type).1 then { p with bal := (BalanceCheck.add p.bal p.tok.type).2 }
    else { p with bal := (BalanceCheck.add p.bal p.tok.type).2, errors := p.errors ++ [.unbalancedClosing p.tok] }
  | _ => p

/-- parser.go:142-161 `next`. -/
def next [TokenStream σ] : M σ Unit := fun p =>
  if (CPAccessor.next TokenStream.pull p.src).2.panicked then .panic
  else .ok ((), balance { p with
    sol := isStartOfLine p.sol p.tok
    tok := (CPAccessor.next TokenStream.pull p.src).1
    src := (CPAccessor.next TokenStream.pull p.src).2 })

/-- parser.go:197-203 `setCheckpoint`. -/
def setCheckpoint : M σ Unit := fun p =>
  .ok ((), { p with
    src := CPAccessor.setCheckpoint p.src
    saved := ⟨p.sol, BalanceCheck.memento p.bal⟩ :: p.saved })

/-- parser.go:205-210 `commit`. -/
def commit : M σ Unit := fun p =>
  .ok ((), { p with src := CPAccessor.commit p.src, saved := p.saved.tail })

/-- parser.go:212-219 `rollback`. -/
def rollback : M σ Unit := fun p =>
  if (CPAccessor.rollback p.src).2.panicked then .panic
  else match p.saved with
    | [] => .ok ((), { p with tok := (CPAccessor.rollback p.src).1, src := (CPAccessor.rollback p.src).2 })
    | s :: rest => .ok ((), { p with
        tok := (CPAccessor.rollback p.src).1
        src := (CPAccessor.rollback p.src).2
        sol := s.sol
        bal := BalanceCheck.setMemento p.bal s.memento
        saved := rest })

/-- `p.tokSrc.SetRawMode()` and `p.tokSrc.UnsetRawMode()` (token_source.go:12-15, 26). -/
def setRaw [TokenStream σ] (v : Bool) : M σ Unit := fun p =>
  .ok ((), { p with src := { p.src with stream := TokenStream.setRaw v p.src.stream } })

/-- `bufsPool.Get()` (parser.go:29-31): a buffer from the pool, or a new one. -/
def getBuf : M σ Buf := fun p =>
  match p.pool with
  | [] => .ok ([], p)
  | b :: rest => .ok (b, { p with pool := rest })

/-- `buf.Reset(); bufsPool.Put(buf)`, as at all places where a buffer is given back (flow.go:178-179, 210-211, 353-354,
385-386, 954-955, 1006-1007, block.go:497-498, 791-792). -/
def resetAndPut (_buf : Buf) : M σ Unit := fun p => .ok ((), { p with pool := [] :: p.pool })

/-- `buf.Truncate(n)`, which panics if the buffer is shorter. -/
def truncate (n : Nat) (buf : Buf) : M σ Buf := fun p =>
  if n ≤ buf.length then .ok (buf.take n, p) else .panic

/-- `int8` increment. -/
def inc8 (c : Int) : Int := if c = 127 then -128 else c + 1

/-- `f.m[pos]`. -/
def markCount (m : List (Pos × Int)) (pos : Pos) : Int := (m.lookup pos).getD 0

/-- `f.m[pos]++`. -/
def bump : List (Pos × Int) → Pos → List (Pos × Int)
  | [], pos => [(pos, 1)]
  | (q, c) :: m, pos => if q = pos then (q, inc8 c) :: m else (q, c) :: bump m pos

/-- finder.go:19-22 `Mark` with `deadEndTriggerThreshold` (finder.go:7). -/
def mark (t : Tok) : M σ Bool := fun p =>
  .ok (64 < markCount (bump p.marks t.start) t.start, { p with marks := bump p.marks t.start })

/-- The often repeated shape `p.setCheckpoint(); r := m(); if valid(r) { p.commit() } else { p.rollback() }`, for example
indents.go:179-184. -/
def attempt (valid : α → Bool) (m : M σ α) : M σ α := do
  setCheckpoint
  let r ← m
  if valid r then do
    commit
    pure r
  else do
    rollback
    pure r

/-- A loop with a break condition: the body tells whether to go on. -/
def loop : Nat → (α → M σ (Bool × α)) → α → M σ α
  | 0, _, _ => outOfFuel
  | f + 1, body, x => do
    let r ← body x
    if r.1 then loop f body r.2 else pure r.2

/-- The often repeated loop `for { p.setCheckpoint(); if !valid(m()) { p.rollback(); break }; p.commit() }`, for example
comments.go:22-29. -/
def tries (f : Nat) (body : α → M σ (Bool × α)) (x : α) : M σ α := loop f (fun x => attempt Prod.fst (body x)) x

/-- `for pred(p.tok) { p.next() }`. -/
def skipWhile [TokenStream σ] (f : Nat) (pred : Tok → Bool) : M σ Unit :=
  loop f (fun u => do
    let t ← tok
    if pred t then do
      next
      pure (true, u)
    else pure (false, u)) ()

/-- `for pred(p.tok) { buf.WriteString(p.tok.Origin); p.next() }`. -/
def takeWhile [TokenStream σ] (f : Nat) (pred : Tok → Bool) (buf : Buf) : M σ Buf :=
  loop f (fun buf => do
    let t ← tok
    if pred t then do
      next
      pure (true, buf ++ t.origin)
    else pure (false, buf)) buf

/-- token.go:136-143 `IsWhiteSpace`. -/
def isWhite (t : Tok) : Bool := t.type.isWhiteSpace

/-- token.go:147-154 `IsNonBreak`. -/
def isNonBreak (t : Tok) : Bool := t.type.isNonBreak

/-- `tok.Type == StringType && tok.ConformsCharSet(cst)`. -/
def stringIn (cst : YamlChar.CharSet) (t : Tok) : Bool :=
  t.type = .string && YamlChar.conformsCharSet t.origin cst

/-- `tok.Type == LineBreakType || tok.Type == EOFType`. -/
def isBreakOrEOF (t : Tok) : Bool := t.type = .lineBreak || t.type = .eof

section Elementary

variable [TokenStream σ]

/-! ### indents.go, comments.go -/

/-- indents.go:38-46 `parseSeparateInLine`. -/
def parseSeparateInLine (f : Nat) : M σ Bool := do
  let e ← hasErrors
  if e then pure false else
  let t ← tok
  let s ← startOfLine
  if !isWhite t && !s then pure false else do
  skipWhile f isWhite
  pure true

/-- comments.go:77-88 `parseCommentText`. -/
def parseCommentText (f : Nat) : M σ Bool := do
  let e ← hasErrors
  if e then pure false else
  let t ← tok
  if t.type ≠ .comment then pure false else do
  next
  skipWhile f isNonBreak
  pure true

/-- comments.go:58-74 `parseCommentLine`. -/
def parseCommentLine (f : Nat) : M σ Bool := do
  let e ← hasErrors
  if e then pure false else
  let s ← parseSeparateInLine f
  if !s then pure false else
  let _ ← attempt id (parseCommentText f)
  let t ← tok
  if !isBreakOrEOF t then pure false else do
  next
  pure true

/-- comments.go:32-55 `parseSeparatedComment`. -/
def parseSeparatedComment (f : Nat) : M σ Bool := do
  let e ← hasErrors
  if e then pure false else
  let _ ← attempt id (do
    let s ← parseSeparateInLine f
    if !s then pure false else
    let _ ← attempt id (parseCommentText f)
    pure true)
  let t ← tok
  if !isBreakOrEOF t then pure false else do
  next
  pure true

/-- comments.go:22-29 and the same loop in block.go:902-909: comment lines. -/
def commentLines (f : Nat) : M σ Unit :=
  tries f (fun u => do
    let c ← parseCommentLine f
    pure (c, u)) ()

/-- comments.go:9-30 `parseComments`. -/
def parseComments (f : Nat) : M σ Bool := do
  let e ← hasErrors
  if e then pure false else
  let c ← attempt id (parseSeparatedComment f)
  let s ← startOfLine
  if !c && !s then pure false else do
  commentLines f
  pure true

/-- indents.go:66-77 `parseIndentWithStrictEquality`, the loop: exactly `n` spaces. -/
def spaces : Nat → M σ Bool
  | 0 => pure true
  | n + 1 => do
    let t ← tok
    if t.type ≠ .space then pure false else do
    next
    spaces n

/-- indents.go:66-77 `parseIndentWithStrictEquality`. -/
def parseIndentStrict (n : Int) : M σ Bool := do
  let e ← hasErrors
  if e || decide (n < 0) then pure false else
  spaces n.toNat

/-- indents.go:91-94, the second loop: all spaces, counted. -/
def countSpaces (f : Nat) (n : Int) : M σ Int :=
  loop f (fun n => do
    let t ← tok
    if t.type = .space then do
      next
      pure (true, n + 1)
    else pure (false, n)) n

/-- indents.go:79-97 `parseIndentWithLowerBound`; `none` is the invalid node. -/
def parseIndentLowerBound (f : Nat) (lowerBound : Int) : M σ (Option Int) := do
  let e ← hasErrors
  if e then pure none else
  let s ← spaces lowerBound.toNat
  if !s then pure none else do
  let n ← countSpaces f (max lowerBound 0)
  pure (some n)

/-- indents.go:49-64 `parseIndent`. -/
def parseIndent (f : Nat) (ind : Ind) : M σ (Bool × Ind) :=
  match ind.mode with
  | .strict => do
    let r ← parseIndentStrict ind.value
    pure (r, ind)
  | .lowerBound => do
    let r ← parseIndentLowerBound f ind.value
    match r with
    | none => pure (false, ind)
    | some n => pure (true, ⟨n, .strict⟩)
  | .unknown => pure (false, ind)

/-- indents.go:114-121, the loop of `parseBorderedIndent`: at most `n` spaces. -/
def upToSpaces : Nat → M σ Unit
  | 0 => pure ()
  | n + 1 => do
    let t ← tok
    if t.type ≠ .space then pure () else do
    next
    upToSpaces n

/-- indents.go:109-124 `parseBorderedIndent`. -/
def parseBorderedIndent (n lowBorder : Int) : M σ Bool := do
  let e ← hasErrors
  if e || decide (n < lowBorder) then pure false else do
  upToSpaces (n - lowBorder).toNat
  pure true

/-- indents.go:100-102 `parseIndentLessThan`. -/
def parseIndentLessThan (n : Int) : M σ Bool := parseBorderedIndent n 1

/-- indents.go:105-107 `parseIndentLessThanOrEqual`. -/
def parseIndentLessThanOrEqual (n : Int) : M σ Bool := parseBorderedIndent n 0

/-- indents.go:169-186 `parseFlowLinePrefix`. -/
def parseFlowLinePrefix (f : Nat) (ind : Ind) : M σ (Bool × Ind) := do
  let e ← hasErrors
  if e then pure (false, ind) else
  let r ← parseIndent f ind
  if !r.1 then pure (false, r.2) else do
  let _ ← attempt id (parseSeparateInLine f)
  pure (true, r.2)

/-- indents.go:157-166 `parseLinePrefix`, and indents.go:152-154 `parseBlockLinePrefix`. -/
def parseLinePrefix (f : Nat) (ind : Ind) (ctx : PCtx) : M σ (Bool × Ind) :=
  match ctx with
  | .blockOut => parseIndent f ind
  | .blockIn => parseIndent f ind
  | .flowOut => parseFlowLinePrefix f ind
  | .flowIn => parseFlowLinePrefix f ind
  | _ => pure (false, ind)

/-- indents.go:127-149 `parseEmpty`. -/
def parseEmpty (f : Nat) (ind : Ind) (ctx : PCtx) (buf : Buf) : M σ (Bool × Ind × Buf) := do
  let e ← hasErrors
  if e then pure (false, ind, buf) else
  let lp ← attempt Prod.fst (parseLinePrefix f ind ctx)
  let ok ← if lp.1 then pure true else parseIndentLessThan lp.2.value
  if !ok then pure (false, lp.2, buf) else
  let t ← tok
  if t.type ≠ .lineBreak then pure (false, lp.2, buf) else do
  next
  pure (true, lp.2, buf ++ t.origin)

/-- indents.go:21-35 `parseSeparateLines`. -/
def parseSeparateLines (f : Nat) (ind : Ind) : M σ (Bool × Ind) := do
  let e ← hasErrors
  if e then pure (false, ind) else
  let r ← attempt Prod.fst (do
    let c ← parseComments f
    if !c then pure (false, ind) else
    parseFlowLinePrefix f ind)
  if r.1 then pure (true, r.2) else
  let s ← parseSeparateInLine f
  pure (s, r.2)

/-- indents.go:11-19 `parseSeparate`. -/
def parseSeparate (f : Nat) (ind : Ind) (ctx : PCtx) : M σ (Bool × Ind) :=
  match ctx with
  | .blockIn => parseSeparateLines f ind
  | .blockOut => parseSeparateLines f ind
  | .flowIn => parseSeparateLines f ind
  | .flowOut => parseSeparateLines f ind
  | .blockKey => do
    let s ← parseSeparateInLine f
    pure (s, ind)
  | .flowKey => do
    let s ← parseSeparateInLine f
    pure (s, ind)
  | .none => pure (false, ind)

/-! ### properties.go -/

/-- node.go:111-119 `TokenChompingType`, and properties.go:36-43 `parseChompingIndicator`. -/
def parseChompingIndicator : M σ Chomping := do
  let t ← tok
  match t.type with
  | .stripChomping => do
    next
    pure .strip
  | .keepChomping => do
    next
    pure .keep
  | _ => pure .clip

/-- `strconv.Atoi` of a string of decimal digits (without the limit of the type: larger numbers are refused anyway). -/
def decimalValue (s : List Char) : Nat := s.foldl (fun n c => 10 * n + (c.toNat - 48)) 0

/-- properties.go:46-62 `parseIndentationIndicator`; `none` is an error. -/
def parseIndentationIndicator : M σ (Option Int) := do
  let t ← tok
  if !stringIn .decimal t then pure (some 0) else
  if t.origin.isEmpty || decide (decimalValue t.origin = 0) || decide (9 < decimalValue t.origin) then pure none else do
  next
  pure (some (decimalValue t.origin))

/-- properties.go:14-33 `parseBlockHeader`; `none` is the invalid node. -/
def parseBlockHeader (f : Nat) : M σ (Option (Chomping × Int)) := do
  let e ← hasErrors
  if e then pure none else
  let c ← parseChompingIndicator
  let i ← parseIndentationIndicator
  match i with
  | none => pure none
  | some i => do
    let c' ← if c = .clip then parseChompingIndicator else pure c
    let ok ← attempt id (parseSeparatedComment f)
    if ok then pure (some (c', i)) else pure none

/-- properties.go:102-113 `parseAliasNode`. -/
def parseAliasNode : M σ Node := do
  let e ← hasErrors
  if e then pure .invalid else
  let t ← tok
  if t.type ≠ .alias then pure .invalid else do
  next
  let t ← tok
  if stringIn .anchor t then do
    next
    pure (.alias t.origin)
  else pure .invalid

/-- properties.go:116-131 `parseAnchorProperty`. -/
def parseAnchorProperty : M σ Node := do
  let e ← hasErrors
  if e then pure .invalid else
  let t ← tok
  if t.type ≠ .anchor then pure .invalid else
  attempt validNode (do
    next
    let t ← tok
    if stringIn .anchor t then do
      next
      pure (.anchor t.origin)
    else pure .invalid)

/-- documents.go:254-281 `parseTagHandle`. -/
def parseTagHandle : M σ Bool := do
  let e ← hasErrors
  if e then pure false else
  let t ← tok
  if t.type ≠ .tag then pure false else do
  next
  let t ← tok
  if t.type = .tag then do
    next
    pure true
  else do
    let _ ← attempt id (do
      let t ← tok
      if stringIn .word t then do
        next
        let t ← tok
        if t.type = .tag then do
          next
          pure true
        else pure false
      else pure false)
    pure true

/-- properties.go:160-168: the text between `<` and `>`, if it is an URI.  (The last byte is `>`, hence the last
character is.) -/
def verbatimTag (s : List Char) : Option (List Char) :=
  match s with
  | '<' :: r =>
    if r.getLast? = some '>' ∧ r.dropLast ≠ [] ∧ YamlChar.conformsCharSet r.dropLast .uri = true then some r.dropLast
    else none
  | _ => none

/-- properties.go:134-186 `parseTagProperty`. -/
def parseTagProperty : M σ Node := do
  let e ← hasErrors
  if e then pure .invalid else do
  setCheckpoint
  let h ← parseTagHandle
  let t ← tok
  if h && stringIn .tag t then do
    commit
    next
    pure (.tag t.origin)
  else do
    rollback
    let t ← tok
    if t.type ≠ .tag then pure .invalid else do
    setRaw true
    next
    setRaw false
    let t ← tok
    if t.type ≠ .string then pure (.tag []) else
    match verbatimTag t.origin with
    | some u => do
      next
      pure (.tag u)
    | none => do
      appendError (.tag t.origin t.start)
      pure (.tag [])

/-- properties.go:65-99 `parseProperties`. -/
def parseProperties (f : Nat) (ind : Ind) (ctx : PCtx) : M σ (Node × Ind) := do
  let e ← hasErrors
  if e then pure (.invalid, ind) else
  let t ← tok
  match t.type with
  | .tag => do
    let tag ← parseTagProperty
    if !validNode tag then pure (.invalid, ind) else
    let r ← attempt (fun r => validNode r.1) (do
      let s ← parseSeparate f ind ctx
      if s.1 then do
        let a ← parseAnchorProperty
        pure (a, s.2)
      else pure (.nil, s.2))
    pure (.properties tag r.1, r.2)
  | .anchor => do
    let anchor ← parseAnchorProperty
    if !validNode anchor then pure (.invalid, ind) else
    let r ← attempt (fun r => validNode r.1) (do
      let s ← parseSeparate f ind ctx
      if s.1 then do
        let a ← parseTagProperty
        pure (a, s.2)
      else pure (.nil, s.2))
    pure (.properties r.1 anchor, r.2)
  | _ => pure (.invalid, ind)

/-- parser.go:221-226 `newContentNode`. -/
def newContentNode (properties content : Node) : Node :=
  if validNode properties then .content properties content else content

end Elementary

end Verif.Parser
