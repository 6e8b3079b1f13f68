import Verif.Model.Parser

/-!
Model of `engines/yayamls/parser/flow.go`: flow nodes.

The recursion of the flow productions goes through `parseFlowJSONContent`, which is passed as the argument `json`; the
knot is tied in `Verif.Model.ParserDocs`.
-/

namespace Verif.Parser

open Verif.Token Verif.Lexer Verif.Ast

variable {σ : Type} [TokenStream σ]

/-- The node of a result is valid. -/
def okNode {β : Type} (r : Node × β) : Bool := validNode r.1

/-- Type of the parameter `contentParse` (flow.go:33). -/
abbrev Content (σ : Type) := Ind → PCtx → M σ (Node × Ind)

/-! ### Line breaks inside of text (block.go:677-730, flow.go:978-997) -/

/-- The loop `for { p.setCheckpoint(); if !parseEmpty(..) { rollback; truncate; break }; commit }` (block.go:536-544,
619-628, 719-728, 842-851). -/
def empties (f : Nat) (ctx : PCtx) (x : Ind × Buf) : M σ (Ind × Buf) :=
  tries f (fun x => do
    let r ← parseEmpty f x.1 ctx x.2
    if r.1 then pure (true, r.2) else do
    let b ← truncate x.2.length r.2.2
    pure (false, r.2.1, b)) x

/-- block.go:704-730 `parseTrimmed`. -/
def parseTrimmed (f : Nat) (ind : Ind) (ctx : PCtx) (buf : Buf) : M σ (Bool × Ind × Buf) := do
  let e ← hasErrors
  if e then pure (false, ind, buf) else
  let t ← tok
  if t.type ≠ .lineBreak then pure (false, ind, buf) else do
  next
  let r ← parseEmpty f ind ctx buf
  if !r.1 then do
    let b ← truncate buf.length r.2.2
    pure (false, r.2.1, b)
  else do
    let x ← empties f ctx r.2
    pure (true, x)

/-- block.go:678-701 `parseFoldedLineBreak`. -/
def parseFoldedLineBreak (f : Nat) (ind : Ind) (ctx : PCtx) (buf : Buf) : M σ (Bool × Ind × Buf) := do
  let e ← hasErrors
  if e then pure (false, ind, buf) else
  let r ← attempt Prod.fst (parseTrimmed f ind ctx buf)
  if r.1 then pure (true, r.2) else do
  let b ← truncate buf.length r.2.2
  let t ← tok
  if t.type ≠ .lineBreak then pure (false, r.2.1, b) else do
  next
  pure (true, r.2.1, b ++ [' '])

/-- flow.go:979-997 `parseFlowFolded`. -/
def parseFlowFolded (f : Nat) (ind : Ind) (buf : Buf) : M σ (Bool × Ind × Buf) := do
  let e ← hasErrors
  if e then pure (false, ind, buf) else do
  let _ ← attempt id (parseSeparateInLine f)
  let r ← parseFoldedLineBreak f ind .flowIn buf
  if !r.1 then do
    let b ← truncate buf.length r.2.2
    pure (false, r.2.1, b)
  else do
    let l ← parseFlowLinePrefix f r.2.1
    if !l.1 then do
      let b ← truncate buf.length r.2.2
      pure (false, l.2, b)
    else pure (true, l.2, r.2.2)

/-! ### Plain scalars -/

/-- flow.go:1083-1092 `isPlainSafeToken`. -/
def isPlainSafeToken (t : Tok) (ctx : PCtx) : Bool :=
  match ctx with
  | .flowIn => t.type = .string
  | .flowOut => t.type = .string
  | .blockKey => stringIn .plainSafe t
  | .flowKey => stringIn .plainSafe t
  | _ => false

/-- flow.go:1064: the token types which may start a plain scalar. -/
def isPlainIndicator (t : Tok) : Bool :=
  t.type = .mappingKey || t.type = .mappingValue || t.type = .sequenceEntry

/-- flow.go:1055-1081 `parsePlainFirst`. -/
def parsePlainFirst (ctx : PCtx) (buf : Buf) : M σ (Bool × Buf) := do
  let e ← hasErrors
  if e then pure (false, buf) else
  let t ← tok
  if t.type = .string && isPlainSafeToken t ctx then pure (true, buf) else
  if !isPlainIndicator t then pure (false, buf) else
  attempt Prod.fst (do
    next
    let t' ← tok
    if !isPlainSafeToken t' ctx then do
      let b ← truncate buf.length (buf ++ t.origin)
      pure (false, b)
    else pure (true, buf ++ t.origin))

/-- flow.go:1023-1052 `parsePlainInLine`. -/
def parsePlainInLine (f : Nat) (ctx : PCtx) (buf : Buf) : M σ (Bool × Buf) := do
  let e ← hasErrors
  if e then pure (false, buf) else
  let b ← loop f (fun buf => do
    setCheckpoint
    let b ← takeWhile f isWhite buf
    let t ← tok
    if !isPlainSafeToken t ctx then do
      let b ← truncate buf.length b
      rollback
      pure (false, b)
    else do
      commit
      next
      pure (true, b ++ t.origin)) buf
  pure (true, b)

/-- flow.go:1000-1020 `parsePlainOneLine`. -/
def parsePlainOneLine (f : Nat) (ctx : PCtx) : M σ Node := do
  let e ← hasErrors
  if e then pure .invalid else
  let buf ← getBuf
  let r ← parsePlainFirst ctx buf
  if !r.1 then do
    let t ← tok
    let d ← mark t
    if d then do
      appendError (.deadEnd t.start)
      resetAndPut r.2
      pure .invalid
    else do
      resetAndPut r.2
      pure .invalid
  else do
    let b ← parsePlainInLine f ctx r.2
    if !b.1 then do
      resetAndPut b.2
      pure .invalid
    else do
      resetAndPut b.2
      pure (.text b.2 .unknown)

/-- flow.go:960-976 `parsePlainNextLine`. -/
def parsePlainNextLine (f : Nat) (ind : Ind) (ctx : PCtx) (buf : Buf) : M σ (Bool × Ind × Buf) := do
  let e ← hasErrors
  if e then do
    let b ← truncate buf.length buf
    pure (false, ind, b)
  else do
    let r ← parseFlowFolded f ind buf
    if !r.1 then do
      let b ← truncate buf.length r.2.2
      pure (false, r.2.1, b)
    else do
      let t ← tok
      if !isPlainSafeToken t ctx then do
        let b ← truncate buf.length r.2.2
        pure (false, r.2.1, b)
      else do
        let l ← parsePlainInLine f ctx r.2.2
        if !l.1 then do
          let b ← truncate buf.length l.2
          pure (false, r.2.1, b)
        else pure (true, r.2.1, l.2)

/-- flow.go:943-952: further lines of a plain scalar. -/
def plainLines (f : Nat) (ctx : PCtx) (x : Ind × Buf) : M σ (Ind × Buf) :=
  tries f (fun x => do
    let r ← parsePlainNextLine f x.1 ctx x.2
    if r.1 then pure (true, r.2) else do
    let b ← truncate x.2.length r.2.2
    pure (false, r.2.1, b)) x

/-- flow.go:933-957 `parsePlainMultiLine`. -/
def parsePlainMultiLine (f : Nat) (ind : Ind) (ctx : PCtx) : M σ (Node × Ind) := do
  let e ← hasErrors
  if e then pure (.invalid, ind) else
  let n ← parsePlainOneLine f ctx
  match n with
  | .text first _ => do
    let buf ← getBuf
    let x ← plainLines f ctx (ind, buf ++ first)
    resetAndPut x.2
    pure (.text x.2 .unknown, x.1)
  | _ => pure (.invalid, ind)

/-- flow.go:921-930 `parsePlain`. -/
def parsePlain (f : Nat) (ind : Ind) (ctx : PCtx) : M σ (Node × Ind) :=
  match ctx with
  | .flowIn => parsePlainMultiLine f ind ctx
  | .flowOut => parsePlainMultiLine f ind ctx
  | .blockKey => do
    let n ← parsePlainOneLine f ctx
    pure (n, ind)
  | .flowKey => do
    let n ← parsePlainOneLine f ctx
    pure (n, ind)
  | _ => pure (.invalid, ind)

/-! ### Quoted scalars -/

/-- The loop condition of flow.go:172-173, 189-190, 234-235 (double quotes) and 347-348, 364-365, 407-408 (single
quotes). -/
def isQuotedText (cst : YamlChar.CharSet) (t : Tok) : Bool := stringIn cst t || isWhite t

/-- flow.go:167-181 `parseDoubleOneLine` and flow.go:342-356 `parseSingleOneLine`, which differ in the set of characters
and the quoting type. -/
def parseQuotedOneLine (f : Nat) (cst : YamlChar.CharSet) (q : Quoting) : M σ Node := do
  let e ← hasErrors
  if e then pure .invalid else
  let buf ← getBuf
  let b ← takeWhile f (isQuotedText cst) buf
  resetAndPut b
  pure (.text b q)

/-- flow.go:274-309 `parseDoubleEscaped`.  The loop leaves by `break` without `commit` or `rollback`, so that its last
checkpoint remains. -/
def parseDoubleEscaped (f : Nat) (ind : Ind) (buf : Buf) : M σ (Bool × Ind × Buf) := do
  let e ← hasErrors
  if e then pure (false, ind, buf) else
  let b ← takeWhile f isWhite buf
  let t ← tok
  if t.type ≠ .string || t.origin ≠ ['\\'] then do
    let b ← truncate buf.length b
    pure (false, ind, b)
  else do
    next
    let t ← tok
    if t.type ≠ .lineBreak then do
      let b ← truncate buf.length b
      pure (false, ind, b)
    else do
      next
      let x ← loop f (fun x => do
        setCheckpoint
        let r ← parseEmpty f x.1 .flowIn x.2
        if r.1 then do
          commit
          pure (true, r.2)
        else do
          let b ← truncate x.2.length r.2.2
          pure (false, r.2.1, b)) (ind, b)
      let l ← parseFlowLinePrefix f x.1
      if !l.1 then do
        let b ← truncate buf.length x.2
        pure (false, l.2, b)
      else pure (true, l.2, x.2)

/-- flow.go:258-271 `parseDoubleBreak`. -/
def parseDoubleBreak (f : Nat) (ind : Ind) (buf : Buf) : M σ (Bool × Ind × Buf) := do
  let e ← hasErrors
  if e then pure (false, ind, buf) else
  let r ← attempt Prod.fst (parseDoubleEscaped f ind buf)
  if r.1 then pure (true, r.2) else do
  let b ← truncate buf.length r.2.2
  parseFlowFolded f r.2.1 b

/-- flow.go:216-255 `parseDoubleNextLine` and flow.go:391-427 `parseSingleNextLine`, which differ in the set of
characters and in the production `brk` of the line break.  The first argument bounds the recursion. -/
def parseQuotedNextLine (f : Nat) (cst : YamlChar.CharSet) (brk : Ind → Buf → M σ (Bool × Ind × Buf)) :
    Nat → Ind → Buf → M σ (Bool × Ind × Buf)
  | 0, _, _ => outOfFuel
  | n + 1, ind, buf => do
    let e ← hasErrors
    if e then do
      let b ← truncate buf.length buf
      pure (false, ind, b)
    else do
      let r ← brk ind buf
      if !r.1 then do
        let b ← truncate buf.length r.2.2
        pure (false, r.2.1, b)
      else do
        setCheckpoint
        let t ← tok
        if !stringIn cst t then do
          rollback
          pure (true, r.2)
        else do
          commit
          next
          let b ← takeWhile f (isQuotedText cst) (r.2.2 ++ t.origin)
          let x ← attempt Prod.fst (parseQuotedNextLine f cst brk n r.2.1 b)
          if x.1 then pure (true, x.2) else do
          let b' ← truncate b.length x.2.2
          let b'' ← takeWhile f isWhite b'
          pure (true, x.2.1, b'')

/-- flow.go:184-213 `parseDoubleMultiLine` and flow.go:359-388 `parseSingleMultiLine`. -/
def parseQuotedMultiLine (f : Nat) (cst : YamlChar.CharSet) (brk : Ind → Buf → M σ (Bool × Ind × Buf)) (q : Quoting)
    (ind : Ind) : M σ (Node × Ind) := do
  let e ← hasErrors
  if e then pure (.invalid, ind) else
  let buf ← getBuf
  let b ← takeWhile f (isQuotedText cst) buf
  let x ← attempt Prod.fst (parseQuotedNextLine f cst brk f ind b)
  if x.1 then do
    resetAndPut x.2.2
    pure (.text x.2.2 q, x.2.1)
  else do
    let b' ← truncate b.length x.2.2
    let b'' ← takeWhile f isWhite b'
    resetAndPut b''
    pure (.text b'' q, x.2.1)

/-- flow.go:155-164 `parseDoubleText` and flow.go:330-339 `parseSingleText`. -/
def parseQuotedText (f : Nat) (cst : YamlChar.CharSet) (brk : Ind → Buf → M σ (Bool × Ind × Buf)) (q : Quoting)
    (ind : Ind) (ctx : PCtx) : M σ (Node × Ind) :=
  match ctx with
  | .flowIn => parseQuotedMultiLine f cst brk q ind
  | .flowOut => parseQuotedMultiLine f cst brk q ind
  | .blockKey => do
    let n ← parseQuotedOneLine f cst q
    pure (n, ind)
  | .flowKey => do
    let n ← parseQuotedOneLine f cst q
    pure (n, ind)
  | _ => pure (.invalid, ind)

/-- flow.go:137-152 `parseDoubleQuoted` and flow.go:312-327 `parseSingleQuoted`; `quote` is the type of the quotes. -/
def parseQuoted (f : Nat) (quote : TokType) (cst : YamlChar.CharSet) (brk : Ind → Buf → M σ (Bool × Ind × Buf))
    (q : Quoting) (ind : Ind) (ctx : PCtx) : M σ (Node × Ind) := do
  let e ← hasErrors
  if e then pure (.invalid, ind) else
  let t ← tok
  if t.type ≠ quote then pure (.invalid, ind) else do
  next
  let r ← parseQuotedText f cst brk q ind ctx
  if !okNode r then pure (.invalid, r.2) else
  let t ← tok
  if t.type ≠ quote then pure (.invalid, r.2) else do
  next
  pure r

/-- flow.go:137-309 `parseDoubleQuoted` with its productions. -/
def parseDoubleQuoted (f : Nat) (ind : Ind) (ctx : PCtx) : M σ (Node × Ind) :=
  parseQuoted f .doubleQuote .doubleQuoted (parseDoubleBreak f) .double ind ctx

/-- flow.go:312-427 `parseSingleQuoted` with its productions. -/
def parseSingleQuoted (f : Nat) (ind : Ind) (ctx : PCtx) : M σ (Node × Ind) :=
  parseQuoted f .singleQuote .singleQuoted (parseFlowFolded f) .single ind ctx

/-! ### Flow nodes -/

/-- `p.setCheckpoint(); if valid(p.parseSeparate(ind, ctx)) { p.commit() } else { p.rollback() }` (for example
flow.go:436-441). -/
def optSeparate (f : Nat) (ind : Ind) (ctx : PCtx) : M σ Ind := do
  let r ← attempt Prod.fst (parseSeparate f ind ctx)
  pure r.2

/-- flow.go:30-73 `parseGenericFlowNode`. -/
def parseGenericFlowNode (f : Nat) (ind : Ind) (ctx : PCtx) (content : Content σ) : M σ (Node × Ind) := do
  let e ← hasErrors
  if e then pure (.invalid, ind) else
  let a ← attempt validNode parseAliasNode
  if validNode a then pure (a, ind) else
  let n ← attempt okNode (content ind ctx)
  if okNode n then pure n else
  let pr ← parseProperties f n.2 ctx
  if !okNode pr then pure (.invalid, pr.2) else
  let m ← attempt okNode (do
    let s ← parseSeparate f pr.2 ctx
    if s.1 then content s.2 ctx else pure (n.1, s.2))
  if okNode m then pure (newContentNode pr.1 m.1, m.2) else pure (newContentNode pr.1 .null, m.2)

/-- flow.go:105-118 `parseFlowContent`. -/
def parseFlowContent (f : Nat) (json : Content σ) (ind : Ind) (ctx : PCtx) : M σ (Node × Ind) := do
  let e ← hasErrors
  if e then pure (.invalid, ind) else
  let n ← attempt okNode (parsePlain f ind ctx)
  if okNode n then pure n else
  json n.2 ctx

/-- flow.go:76-78 `parseFlowNode`. -/
def parseFlowNode (f : Nat) (json : Content σ) (ind : Ind) (ctx : PCtx) : M σ (Node × Ind) :=
  parseGenericFlowNode f ind ctx (parseFlowContent f json)

/-- flow.go:81-83 `parseFlowYAMLNode`. -/
def parseFlowYAMLNode (f : Nat) (ind : Ind) (ctx : PCtx) : M σ (Node × Ind) :=
  parseGenericFlowNode f ind ctx (parsePlain f)

/-- flow.go:86-102 `parseFlowJSONNode`. -/
def parseFlowJSONNode (f : Nat) (json : Content σ) (ind : Ind) (ctx : PCtx) : M σ (Node × Ind) := do
  let e ← hasErrors
  if e then pure (.invalid, ind) else
  let r ← attempt (fun r => r.2.1) (do
    let pr ← parseProperties f ind ctx
    if okNode pr then do
      let s ← parseSeparate f pr.2 ctx
      pure (pr.1, s)
    else pure (pr.1, false, pr.2))
  let c ← json r.2.2 ctx
  if !okNode c then pure (.invalid, c.2) else
  pure (newContentNode r.1 c.1, c.2)

/-- flow.go:739-759 `parseImplicitYAMLKey`. -/
def parseImplicitYAMLKey (f : Nat) (ctx : PCtx) : M σ Node := do
  let e ← hasErrors
  if e then pure .invalid else
  let n ← parseFlowYAMLNode f ⟨0, .strict⟩ ctx
  if !okNode n then pure .invalid else do
  let _ ← attempt id (parseSeparateInLine f)
  pure n.1

/-- flow.go:700-720 `parseImplicitJSONKey`. -/
def parseImplicitJSONKey (f : Nat) (json : Content σ) (ctx : PCtx) : M σ Node := do
  let e ← hasErrors
  if e then pure .invalid else
  let n ← parseFlowJSONNode f json ⟨0, .strict⟩ ctx
  if !okNode n then pure .invalid else do
  let _ ← attempt id (parseSeparateInLine f)
  pure n.1

/-- flow.go:897-918 `parseFlowMappingSeparateValue`. -/
def parseFlowMappingSeparateValue (f : Nat) (json : Content σ) (ind : Ind) (ctx : PCtx) : M σ (Node × Ind) := do
  let e ← hasErrors
  if e then pure (.invalid, ind) else
  let t ← tok
  if t.type ≠ .mappingValue then pure (.invalid, ind) else do
  next
  let t ← tok
  if isPlainSafeToken t ctx then pure (.invalid, ind) else
  let v ← attempt okNode (do
    let s ← parseSeparate f ind ctx
    if s.1 then parseFlowNode f json s.2 ctx else pure (.invalid, s.2))
  if okNode v then pure v else pure (.null, v.2)

/-- flow.go:843-865 `parseFlowMappingAdjacentValue`. -/
def parseFlowMappingAdjacentValue (f : Nat) (json : Content σ) (ind : Ind) (ctx : PCtx) : M σ (Node × Ind) := do
  let e ← hasErrors
  if e then pure (.invalid, ind) else
  let t ← tok
  if t.type ≠ .mappingValue then pure (.invalid, ind) else do
  next
  let v ← attempt okNode (do
    let i ← optSeparate f ind ctx
    parseFlowNode f json i ctx)
  if okNode v then pure v else pure (.null, v.2)

/-- flow.go:801-810 `parseFlowMappingEmptyKeyEntry`. -/
def parseFlowMappingEmptyKeyEntry (f : Nat) (json : Content σ) (ind : Ind) (ctx : PCtx) : M σ (Node × Ind) := do
  let e ← hasErrors
  if e then pure (.invalid, ind) else
  let v ← parseFlowMappingSeparateValue f json ind ctx
  if !okNode v then pure (.invalid, v.2) else
  pure (.mappingEntry .null v.1, v.2)

/-- flow.go:868-894 `parseFlowMappingYAMLKeyEntry`. -/
def parseFlowMappingYAMLKeyEntry (f : Nat) (json : Content σ) (ind : Ind) (ctx : PCtx) : M σ (Node × Ind) := do
  let e ← hasErrors
  if e then pure (.invalid, ind) else
  let k ← parseFlowYAMLNode f ind ctx
  if !okNode k then pure (.invalid, k.2) else
  let v ← attempt okNode (do
    let i ← optSeparate f k.2 ctx
    parseFlowMappingSeparateValue f json i ctx)
  if okNode v then pure (.mappingEntry k.1 v.1, v.2) else pure (.mappingEntry k.1 .null, v.2)

/-- flow.go:813-840 `parseFlowMappingJSONKeyEntry`. -/
def parseFlowMappingJSONKeyEntry (f : Nat) (json : Content σ) (ind : Ind) (ctx : PCtx) : M σ (Node × Ind) := do
  let e ← hasErrors
  if e then pure (.invalid, ind) else
  let k ← parseFlowJSONNode f json ind ctx
  if !okNode k then pure (.invalid, k.2) else
  let v ← attempt okNode (do
    let i ← optSeparate f k.2 ctx
    parseFlowMappingAdjacentValue f json i ctx)
  if okNode v then pure (.mappingEntry k.1 v.1, v.2) else pure (.mappingEntry k.1 .null, v.2)

/-- flow.go:777-798 `parseFlowMappingImplicitEntry`. -/
def parseFlowMappingImplicitEntry (f : Nat) (json : Content σ) (ind : Ind) (ctx : PCtx) : M σ (Node × Ind) := do
  let e ← hasErrors
  if e then pure (.invalid, ind) else
  let n ← attempt okNode (parseFlowMappingYAMLKeyEntry f json ind ctx)
  if okNode n then pure n else
  let n ← attempt okNode (parseFlowMappingJSONKeyEntry f json n.2 ctx)
  if okNode n then pure n else
  parseFlowMappingEmptyKeyEntry f json n.2 ctx

/-- flow.go:762-774 `parseFlowMappingExplicitEntry`. -/
def parseFlowMappingExplicitEntry (f : Nat) (json : Content σ) (ind : Ind) (ctx : PCtx) : M σ (Node × Ind) := do
  let e ← hasErrors
  if e then pure (.invalid, ind) else
  let n ← attempt okNode (parseFlowMappingImplicitEntry f json ind ctx)
  if okNode n then pure n else pure (.mappingEntry .null .null, n.2)

/-- flow.go:504-525 `parseFlowMappingEntry`. -/
def parseFlowMappingEntry (f : Nat) (json : Content σ) (ind : Ind) (ctx : PCtx) : M σ (Node × Ind) := do
  let e ← hasErrors
  if e then pure (.invalid, ind) else
  let t ← tok
  let n ← if t.type = .mappingKey then
      attempt okNode (do
        next
        let s ← parseSeparate f ind ctx
        if s.1 then parseFlowMappingExplicitEntry f json s.2 ctx else pure (.invalid, s.2))
    else pure (.invalid, ind)
  if okNode n then pure n else
  let n ← parseFlowMappingImplicitEntry f json n.2 ctx
  if okNode n then pure n else pure (.invalid, n.2)

/-- flow.go:470-498, the loop of `parseFlowMappingEntries`. -/
def flowMappingEntries (f : Nat) (json : Content σ) (ctx : PCtx) (x : List Node × Ind) : M σ (List Node × Ind) :=
  loop f (fun x => do
    let i ← optSeparate f x.2 ctx
    let t ← tok
    if t.type ≠ .collectEntry then pure (false, x.1, i) else do
    next
    let i ← optSeparate f i ctx
    let n ← attempt okNode (parseFlowMappingEntry f json i ctx)
    if okNode n then pure (true, x.1 ++ [n.1], n.2) else pure (true, x.1, n.2)) x

/-- flow.go:460-501 `parseFlowMappingEntries`. -/
def parseFlowMappingEntries (f : Nat) (json : Content σ) (ind : Ind) (ctx : PCtx) : M σ (Node × Ind) := do
  let e ← hasErrors
  if e then pure (.invalid, ind) else
  let n ← parseFlowMappingEntry f json ind ctx
  if !okNode n then pure (.invalid, n.2) else
  let x ← flowMappingEntries f json ctx ([n.1], n.2)
  pure (.mapping x.1, x.2)

/-- flow.go:430-457 `parseFlowMapping`. -/
def parseFlowMapping (f : Nat) (json : Content σ) (ind : Ind) (ctx : PCtx) : M σ (Node × Ind) := do
  let e ← hasErrors
  if e then pure (.invalid, ind) else
  let t ← tok
  if t.type ≠ .mappingStart then pure (.invalid, ind) else do
  next
  let i ← optSeparate f ind ctx
  let n ← attempt okNode (parseFlowMappingEntries f json i ctx)
  let t ← tok
  if t.type ≠ .mappingEnd then pure (.invalid, n.2) else do
  next
  if okNode n then pure n else pure (.mapping [], n.2)

/-- flow.go:684-697 `parseFlowPairJSONKeyEntry`. -/
def parseFlowPairJSONKeyEntry (f : Nat) (json : Content σ) (ind : Ind) (ctx : PCtx) : M σ (Node × Ind) := do
  let e ← hasErrors
  if e then pure (.invalid, ind) else
  let k ← parseImplicitJSONKey f json .flowKey
  if !validNode k then pure (.invalid, ind) else
  let v ← parseFlowMappingAdjacentValue f json ind ctx
  if !okNode v then pure (.invalid, v.2) else
  pure (.mappingEntry k v.1, v.2)

/-- flow.go:723-736 `parseFlowPairYAMLKeyEntry`. -/
def parseFlowPairYAMLKeyEntry (f : Nat) (json : Content σ) (ind : Ind) (ctx : PCtx) : M σ (Node × Ind) := do
  let e ← hasErrors
  if e then pure (.invalid, ind) else
  let k ← parseImplicitYAMLKey f .flowKey
  if !validNode k then pure (.invalid, ind) else
  let v ← parseFlowMappingSeparateValue f json ind ctx
  if !okNode v then pure (.invalid, v.2) else
  pure (.mappingEntry k v.1, v.2)

/-- flow.go:659-681 `parseFlowPairEntry`. -/
def parseFlowPairEntry (f : Nat) (json : Content σ) (ind : Ind) (ctx : PCtx) : M σ (Node × Ind) := do
  let e ← hasErrors
  if e then pure (.invalid, ind) else
  let n ← attempt okNode (parseFlowPairYAMLKeyEntry f json ind ctx)
  if okNode n then pure n else
  let n ← attempt okNode (parseFlowMappingEmptyKeyEntry f json n.2 ctx)
  if okNode n then pure n else
  parseFlowPairJSONKeyEntry f json n.2 ctx

/-- flow.go:630-656 `parseFlowPair`. -/
def parseFlowPair (f : Nat) (json : Content σ) (ind : Ind) (ctx : PCtx) : M σ (Node × Ind) := do
  let e ← hasErrors
  if e then pure (.invalid, ind) else
  let n ← attempt okNode (parseFlowPairEntry f json ind ctx)
  if okNode n then pure n else
  let t ← tok
  if t.type ≠ .mappingKey then pure (.invalid, n.2) else do
  next
  let s ← parseSeparate f n.2 ctx
  if !s.1 then pure (.invalid, s.2) else
  let n ← parseFlowMappingExplicitEntry f json s.2 ctx
  if !okNode n then pure (.invalid, n.2) else pure n

/-- flow.go:615-627 `parseFlowSequenceEntry`. -/
def parseFlowSequenceEntry (f : Nat) (json : Content σ) (ind : Ind) (ctx : PCtx) : M σ (Node × Ind) := do
  let e ← hasErrors
  if e then pure (.invalid, ind) else
  let n ← attempt okNode (parseFlowPair f json ind ctx)
  if okNode n then pure n else
  parseFlowNode f json n.2 ctx

/-- flow.go:581-609, the loop of `parseFlowSequenceEntries`. -/
def flowSequenceEntries (f : Nat) (json : Content σ) (ctx : PCtx) (x : List Node × Ind) : M σ (List Node × Ind) :=
  loop f (fun x => do
    let i ← optSeparate f x.2 ctx
    let t ← tok
    if t.type ≠ .collectEntry then pure (false, x.1, i) else do
    next
    let i ← optSeparate f i ctx
    let n ← attempt okNode (parseFlowSequenceEntry f json i ctx)
    if okNode n then pure (true, x.1 ++ [n.1], n.2) else pure (false, x.1, n.2)) x

/-- flow.go:571-612 `parseFlowSequenceEntries`. -/
def parseFlowSequenceEntries (f : Nat) (json : Content σ) (ind : Ind) (ctx : PCtx) : M σ (Node × Ind) := do
  let e ← hasErrors
  if e then pure (.invalid, ind) else
  let n ← parseFlowSequenceEntry f json ind ctx
  if !okNode n then pure (.invalid, n.2) else
  let x ← flowSequenceEntries f json ctx ([n.1], n.2)
  pure (.sequence x.1, x.2)

/-- flow.go:558-568 `parseInFlow`. -/
def parseInFlow (f : Nat) (json : Content σ) (ind : Ind) (ctx : PCtx) : M σ (Node × Ind) :=
  match ctx with
  | .flowIn => parseFlowSequenceEntries f json ind .flowIn
  | .flowOut => parseFlowSequenceEntries f json ind .flowIn
  | .blockKey => parseFlowSequenceEntries f json ind .flowKey
  | .flowKey => parseFlowSequenceEntries f json ind .flowKey
  | _ => pure (.invalid, ind)

/-- flow.go:528-555 `parseFlowSequence`. -/
def parseFlowSequence (f : Nat) (json : Content σ) (ind : Ind) (ctx : PCtx) : M σ (Node × Ind) := do
  let e ← hasErrors
  if e then pure (.invalid, ind) else
  let t ← tok
  if t.type ≠ .sequenceStart then pure (.invalid, ind) else do
  next
  let i ← optSeparate f ind ctx
  let n ← attempt okNode (parseInFlow f json i ctx)
  let t ← tok
  if t.type ≠ .sequenceEnd then pure (.invalid, n.2) else do
  next
  if okNode n then pure n else pure (.sequence [], n.2)

/-- flow.go:121-134 `parseFlowJSONContent`. -/
def parseFlowJSONContent (f : Nat) (json : Content σ) (ind : Ind) (ctx : PCtx) : M σ (Node × Ind) := do
  let t ← tok
  match t.type with
  | .sequenceStart => parseFlowSequence f json ind ctx
  | .mappingStart => parseFlowMapping f json ind ctx
  | .singleQuote => parseSingleQuoted f ind ctx
  | .doubleQuote => parseDoubleQuoted f ind ctx
  | _ => pure (.invalid, ind)

/-- flow.go:12-28 `parseFlowInBlock`. -/
def parseFlowInBlock (f : Nat) (json : Content σ) (ind : Ind) : M σ Node := do
  let e ← hasErrors
  if e then pure .invalid else
  let s ← parseSeparate f ⟨ind.value + 1, .strict⟩ .flowOut
  if !s.1 then pure .invalid else
  let n ← parseFlowNode f json s.2 .flowOut
  if !okNode n then pure .invalid else
  let c ← parseComments f
  if !c then pure .invalid else
  pure n.1

end Verif.Parser
