import Verif.Model.ParserFlow

/-!
Model of `engines/yayamls/parser/block.go`: block nodes.

The recursion of the block productions goes through `parseBlockNode` and `parseBlockIndented` (and, in flow content,
through `parseFlowJSONContent`), which are passed in the structure `Calls`; the knot is tied in
`Verif.Model.ParserDocs`.
-/

namespace Verif.Parser

open Verif.Token Verif.Lexer Verif.Ast

variable {σ : Type} [TokenStream σ]

/-- The productions through which the recursion goes. -/
structure Calls (σ : Type) where
  json : Content σ
  node : Content σ
  indented : Content σ

/-! ### Literal and folded scalars -/

/-- The raw rest of a line: `SetRawMode(); for IsNonBreak(p.tok) {..}; UnsetRawMode()` (block.go:601-606, 668-673,
947-952). -/
def rawLine (f : Nat) (buf : Buf) : M σ Buf := do
  setRaw true
  let b ← takeWhile f isNonBreak buf
  setRaw false
  pure b

/-- block.go:929-954 `parseLiteralText`. -/
def parseLiteralText (f : Nat) (ind : Ind) (buf : Buf) : M σ (Bool × Ind × Buf) := do
  let e ← hasErrors
  if e then pure (false, ind, buf) else
  let x ← tries f (fun x => parseEmpty f x.1 .blockIn x.2) (ind, buf)
  let r ← parseIndent f x.1
  if !r.1 then pure (false, r.2, x.2) else
  let t ← tok
  if !isNonBreak t then pure (false, r.2, x.2) else
  let b ← rawLine f x.2
  pure (true, r.2, b)

/-- block.go:914-926 `parseLiteralNext`. -/
def parseLiteralNext (f : Nat) (ind : Ind) (buf : Buf) : M σ (Bool × Ind × Buf) := do
  let e ← hasErrors
  if e then pure (false, ind, buf) else
  let t ← tok
  if t.type ≠ .lineBreak then pure (false, ind, buf) else do
  next
  let r ← parseLiteralText f ind (buf ++ t.origin)
  if !r.1 then do
    let b ← truncate buf.length r.2.2
    pure (false, r.2.1, b)
  else pure (true, r.2)

/-- block.go:891-911 `parseTrailComments`. -/
def parseTrailComments (f : Nat) (ind : Ind) : M σ Bool := do
  let e ← hasErrors
  if e then pure false else
  let i ← parseIndentLessThan ind.value
  if !i then pure false else
  let c ← parseCommentText f
  if !c then pure false else
  let t ← tok
  if !isBreakOrEOF t then pure false else do
  next
  commentLines f
  pure true

/-- block.go:863-888 `parseStripEmpty`. -/
def parseStripEmpty (f : Nat) (ind : Ind) : M σ Bool := do
  let e ← hasErrors
  if e then pure false else do
  tries f (fun u => do
    let i ← parseIndentLessThanOrEqual ind.value
    if !i then pure (false, u) else
    let t ← tok
    if t.type ≠ .lineBreak then pure (false, u) else do
    next
    pure (true, u)) ()
  let _ ← attempt id (parseTrailComments f ind)
  pure true

/-- block.go:837-860 `parseKeepEmpty`. -/
def parseKeepEmpty (f : Nat) (ind : Ind) (buf : Buf) : M σ (Bool × Ind × Buf) := do
  let e ← hasErrors
  if e then pure (false, ind, buf) else
  let x ← empties f .blockIn (ind, buf)
  let c ← attempt id (parseTrailComments f x.1)
  if c then pure (true, x) else do
  let b ← truncate x.2.length x.2
  pure (true, x.1, b)

/-- block.go:822-834 `parseChompedEmpty`. -/
def parseChompedEmpty (f : Nat) (ind : Ind) (chomping : Chomping) (buf : Buf) : M σ (Bool × Ind × Buf) := do
  let e ← hasErrors
  if e then pure (false, ind, buf) else
  match chomping with
  | .clip => do
    let r ← parseStripEmpty f ind
    pure (r, ind, buf)
  | .strip => do
    let r ← parseStripEmpty f ind
    pure (r, ind, buf)
  | .keep => parseKeepEmpty f ind buf
  | .unknown => pure (false, ind, buf)

/-- block.go:797-819 `parseChompedLast`. -/
def parseChompedLast (chomping : Chomping) (buf : Buf) : M σ (Bool × Buf) := do
  let e ← hasErrors
  if e then pure (false, buf) else
  let t ← tok
  match chomping with
  | .strip =>
    if !isBreakOrEOF t then pure (false, buf) else do
    next
    pure (true, buf)
  | .unknown => do
    next
    pure (true, buf)
  | _ =>
    if t.type = .lineBreak then do
      next
      pure (true, buf ++ t.origin)
    else if t.type = .eof then do
      next
      pure (true, buf)
    else pure (false, buf)

/-- block.go:767-776: further lines of a literal scalar. -/
def literalLines (f : Nat) (x : Ind × Buf) : M σ (Ind × Buf) :=
  tries f (fun x => do
    let r ← parseLiteralNext f x.1 x.2
    if r.1 then pure (true, r.2) else do
    let b ← truncate x.2.length r.2.2
    pure (false, r.2.1, b)) x

/-- block.go:759-794 `parseLiteralContent`. -/
def parseLiteralContent (f : Nat) (ind : Ind) (chomping : Chomping) : M σ Node := do
  let e ← hasErrors
  if e then pure .invalid else
  let buf ← getBuf
  let r ← attempt Prod.fst (do
    let r ← parseLiteralText f ind buf
    if r.1 then do
      let x ← literalLines f r.2
      let c ← parseChompedLast chomping x.2
      pure (c.1, x.1, c.2)
    else pure r)
  let c ← parseChompedEmpty f r.2.1 chomping (if r.1 then r.2.2 else [])
  if !c.1 then pure .invalid else do
  resetAndPut c.2.2
  pure (.text c.2.2 .unknown)

/-- block.go:750-753 and block.go:471-474: the indentation of the content of a block scalar. -/
def scalarInd (ind : Ind) (indicator : Int) : Ind :=
  if indicator ≠ 0 then ⟨ind.value + indicator, .strict⟩ else ⟨ind.value, .lowerBound⟩

/-- block.go:733-756 `parseLiteral`. -/
def parseLiteral (f : Nat) (ind : Ind) : M σ Node := do
  let e ← hasErrors
  if e then pure .invalid else
  let t ← tok
  if t.type ≠ .literal then pure .invalid else do
  next
  let h ← parseBlockHeader f
  match h with
  | none => pure .invalid
  | some h => parseLiteralContent f (scalarInd ind h.2) h.1

/-- block.go:659-675 `parseFoldedText`. -/
def parseFoldedText (f : Nat) (ind : Ind) (buf : Buf) : M σ (Bool × Ind × Buf) := do
  let e ← hasErrors
  if e then pure (false, ind, buf) else
  let r ← parseIndent f ind
  if !r.1 then pure (false, r.2, buf) else
  let t ← tok
  if !isNonBreak t || isWhite t then pure (false, r.2, buf) else do
  next
  let b ← rawLine f (buf ++ t.origin)
  pure (true, r.2, b)

/-- block.go:589-608 `parseSpacedText`. -/
def parseSpacedText (f : Nat) (ind : Ind) (buf : Buf) : M σ (Bool × Ind × Buf) := do
  let e ← hasErrors
  if e then pure (false, ind, buf) else
  let r ← parseIndent f ind
  if !r.1 then pure (false, r.2, buf) else
  let t ← tok
  if !isWhite t then pure (false, r.2, buf) else do
  next
  let b ← rawLine f (buf ++ t.origin)
  pure (true, r.2, b)

/-- block.go:611-631 `parseSpacedLineBreak`.  The line break is written but not consumed. -/
def parseSpacedLineBreak (f : Nat) (ind : Ind) (buf : Buf) : M σ (Bool × Ind × Buf) := do
  let e ← hasErrors
  if e then pure (false, ind, buf) else
  let t ← tok
  if t.type ≠ .lineBreak then pure (false, ind, buf) else
  let x ← empties f .blockIn (ind, buf ++ t.origin)
  pure (true, x)

/-- block.go:570-584 and block.go:640-654: line breaks `brk`, each followed by a line `line`. -/
def linesWith (f : Nat) (brk line : Ind → Buf → M σ (Bool × Ind × Buf)) (x : Ind × Buf) : M σ (Ind × Buf) :=
  tries f (fun x => do
    let r ← brk x.1 x.2
    if !r.1 then do
      let b ← truncate x.2.length r.2.2
      pure (false, r.2.1, b)
    else do
      let l ← line r.2.1 r.2.2
      if l.1 then pure (true, l.2) else do
      let b ← truncate x.2.length l.2.2
      pure (false, l.2.1, b)) x

/-- block.go:564-586 `parseSpacedLines`. -/
def parseSpacedLines (f : Nat) (ind : Ind) (buf : Buf) : M σ (Bool × Ind × Buf) := do
  let e ← hasErrors
  if e then pure (false, ind, buf) else
  let r ← parseSpacedText f ind buf
  if !r.1 then pure (false, r.2) else
  let x ← linesWith f (parseSpacedLineBreak f) (parseSpacedText f) r.2
  pure (true, x)

/-- block.go:634-656 `parseFoldedLines`. -/
def parseFoldedLines (f : Nat) (ind : Ind) (buf : Buf) : M σ (Bool × Ind × Buf) := do
  let e ← hasErrors
  if e then pure (false, ind, buf) else
  let r ← parseFoldedText f ind buf
  if !r.1 then pure (false, r.2) else
  let x ← linesWith f (fun i b => parseFoldedLineBreak f i .blockIn b) (parseFoldedText f) r.2
  pure (true, x)

/-- block.go:529-561 `parseSameLines`. -/
def parseSameLines (f : Nat) (ind : Ind) (buf : Buf) : M σ (Bool × Ind × Buf) := do
  let e ← hasErrors
  if e then pure (false, ind, buf) else
  let x ← empties f .blockIn (ind, buf)
  let r ← attempt Prod.fst (parseFoldedLines f x.1 x.2)
  if r.1 then pure (true, r.2) else do
  let b ← truncate x.2.length r.2.2
  let s ← parseSpacedLines f r.2.1 b
  if s.1 then pure (true, s.2) else do
  let b ← truncate buf.length s.2.2
  pure (false, s.2.1, b)

/-- block.go:508-524: further lines of a folded scalar. -/
def diffLines (f : Nat) (x : Ind × Buf) : M σ (Ind × Buf) :=
  tries f (fun x => do
    let t ← tok
    if t.type ≠ .lineBreak then do
      let b ← truncate x.2.length x.2
      pure (false, x.1, b)
    else do
      next
      let r ← parseSameLines f x.1 (x.2 ++ t.origin)
      if r.1 then pure (true, r.2) else do
      let b ← truncate x.2.length r.2.2
      pure (false, r.2.1, b)) x

/-- block.go:503-526 `parseDiffLines`. -/
def parseDiffLines (f : Nat) (ind : Ind) (buf : Buf) : M σ (Bool × Ind × Buf) := do
  let e ← hasErrors
  if e then pure (false, ind, buf) else
  let r ← parseSameLines f ind buf
  if !r.1 then pure (false, r.2) else
  let x ← diffLines f r.2
  pure (true, x)

/-- block.go:480-500 `parseFoldedContent`. -/
def parseFoldedContent (f : Nat) (ind : Ind) (chomping : Chomping) : M σ Node := do
  let e ← hasErrors
  if e then pure .invalid else
  let buf ← getBuf
  let r ← attempt Prod.fst (do
    let r ← parseDiffLines f ind buf
    if r.1 then do
      let c ← parseChompedLast chomping r.2.2
      pure (c.1, r.2.1, c.2)
    else pure r)
  let c ← parseChompedEmpty f r.2.1 chomping (if r.1 then r.2.2 else [])
  if !c.1 then pure .invalid else do
  resetAndPut c.2.2
  pure (.text c.2.2 .unknown)

/-- block.go:454-477 `parseFolded`.  (The missing `return` in line 465 has no effect: `parseBlockHeader` returns a block
header node or an invalid node.) -/
def parseFolded (f : Nat) (ind : Ind) : M σ Node := do
  let e ← hasErrors
  if e then pure .invalid else
  let t ← tok
  if t.type ≠ .folded then pure .invalid else do
  next
  let h ← parseBlockHeader f
  match h with
  | none => pure .invalid
  | some h => parseFoldedContent f (scalarInd ind h.2) h.1

/-- `ind.value++`. -/
def Ind.inc (i : Ind) : Ind := ⟨i.value + 1, i.mode⟩

/-- `ind.value--`. -/
def Ind.dec (i : Ind) : Ind := ⟨i.value - 1, i.mode⟩

/-- block.go:411-451 `parseBlockScalar`. -/
def parseBlockScalar (f : Nat) (ind : Ind) (ctx : PCtx) : M σ (Node × Ind) := do
  let e ← hasErrors
  if e then pure (.invalid, ind) else
  let s ← parseSeparate f ind.inc ctx
  if !s.1 then pure (.invalid, s.2.dec) else
  let r ← attempt (fun r => r.2.1) (do
    let pr ← parseProperties f s.2 ctx
    if okNode pr then do
      let s ← parseSeparate f pr.2 ctx
      pure (pr.1, s)
    else pure (pr.1, false, pr.2))
  let t ← tok
  match t.type with
  | .literal => do
    let c ← parseLiteral f r.2.2.dec
    if !validNode c then pure (.invalid, r.2.2.dec) else
    pure (newContentNode (if r.2.1 then r.1 else .nil) c, r.2.2.dec)
  | .folded => do
    let c ← parseFolded f r.2.2.dec
    if !validNode c then pure (.invalid, r.2.2.dec) else
    pure (newContentNode (if r.2.1 then r.1 else .nil) c, r.2.2.dec)
  | _ => pure (.invalid, r.2.2.dec)

/-! ### Collections -/

/-- The loop over the further entries of a block collection (block.go:108-121, 136-149, 302-315, 392-405). -/
def blockEntries (f : Nat) (entry : Ind → M σ (Node × Ind)) (x : List Node × Ind) : M σ (List Node × Ind) :=
  tries f (fun x => do
    let i ← parseIndent f x.2
    if !i.1 then pure (false, x.1, i.2) else
    let n ← entry i.2
    if okNode n then pure (true, x.1 ++ [n.1], n.2) else pure (false, x.1, n.2)) x

/-- block.go:321-332 `parseBlockSequenceEntry`. -/
def parseBlockSequenceEntry (c : Calls σ) (ind : Ind) : M σ (Node × Ind) := do
  let e ← hasErrors
  if e then pure (.invalid, ind) else
  let t ← tok
  if t.type ≠ .sequenceEntry then pure (.invalid, ind) else do
  next
  let t ← tok
  match t.type with
  | .space => c.indented ind .blockIn
  | .tab => c.indented ind .blockIn
  | .lineBreak => c.indented ind .blockIn
  | _ => pure (.invalid, ind)

/-- block.go:284-318 `parseBlockSequence`. -/
def parseBlockSequence (f : Nat) (c : Calls σ) (ind : Ind) : M σ Node := do
  let e ← hasErrors
  if e then pure .invalid else
  let i ← parseIndent f ⟨ind.value + 1, .lowerBound⟩
  if !i.1 then pure .invalid else
  let n ← parseBlockSequenceEntry c i.2
  if !okNode n then pure .invalid else
  let x ← blockEntries f (parseBlockSequenceEntry c) ([n.1], n.2)
  pure (.sequence x.1)

/-- block.go:382-408 `parseCompactSequence`. -/
def parseCompactSequence (f : Nat) (c : Calls σ) (ind : Ind) : M σ (Node × Ind) := do
  let e ← hasErrors
  if e then pure (.invalid, ind) else
  let n ← parseBlockSequenceEntry c ind
  if !okNode n then pure (.invalid, n.2) else
  let x ← blockEntries f (parseBlockSequenceEntry c) ([n.1], n.2)
  pure (.sequence x.1, x.2)

/-- block.go:269-281 `parseSeqSpace`. -/
def parseSeqSpace (f : Nat) (c : Calls σ) (ind : Ind) (ctx : PCtx) : M σ Node :=
  match ctx with
  | .blockIn => parseBlockSequence f c ind
  | .blockOut => parseBlockSequence f c ind.dec
  | _ => pure .invalid

/-- block.go:257-266 `parseBlockMappingExplicitValue`. -/
def parseBlockMappingExplicitValue (f : Nat) (c : Calls σ) (ind : Ind) : M σ (Node × Ind) := do
  let e ← hasErrors
  if e then pure (.invalid, ind) else
  let i ← parseIndent f ind
  if !i.1 then pure (.invalid, i.2) else
  let t ← tok
  if t.type ≠ .mappingValue then pure (.invalid, i.2) else do
  next
  c.indented i.2 .blockOut

/-- block.go:247-254 `parseBlockMappingExplicitKey`. -/
def parseBlockMappingExplicitKey (c : Calls σ) (ind : Ind) : M σ (Node × Ind) := do
  let e ← hasErrors
  if e then pure (.invalid, ind) else
  let t ← tok
  if t.type ≠ .mappingKey then pure (.invalid, ind) else do
  next
  c.indented ind .blockOut

/-- block.go:226-244 `parseBlockMappingExplicitEntry`. -/
def parseBlockMappingExplicitEntry (f : Nat) (c : Calls σ) (ind : Ind) : M σ (Node × Ind) := do
  let e ← hasErrors
  if e then pure (.invalid, ind) else
  let k ← parseBlockMappingExplicitKey c ind
  if !okNode k then pure (.invalid, k.2) else
  let v ← attempt okNode (parseBlockMappingExplicitValue f c k.2)
  if okNode v then pure (.mappingEntry k.1 v.1, v.2) else pure (.mappingEntry k.1 .null, v.2)

/-- block.go:190-202 `parseBlockMappingImplicitKey`. -/
def parseBlockMappingImplicitKey (f : Nat) (c : Calls σ) : M σ Node := do
  let e ← hasErrors
  if e then pure .invalid else
  let k ← attempt validNode (parseImplicitJSONKey f c.json .blockKey)
  if validNode k then pure k else
  parseImplicitYAMLKey f .blockKey

/-- block.go:205-223 `parseBlockMappingImplicitValue`. -/
def parseBlockMappingImplicitValue (f : Nat) (c : Calls σ) (ind : Ind) : M σ (Node × Ind) := do
  let e ← hasErrors
  if e then pure (.invalid, ind) else
  let t ← tok
  if t.type ≠ .mappingValue then pure (.invalid, ind) else do
  next
  let v ← attempt okNode (c.node ind .blockOut)
  if okNode v then pure v else
  let cm ← parseComments f
  if !cm then pure (.invalid, v.2) else pure (.null, v.2)

/-- block.go:169-187 `parseBlockMappingImplicitEntry`. -/
def parseBlockMappingImplicitEntry (f : Nat) (c : Calls σ) (ind : Ind) : M σ (Node × Ind) := do
  let e ← hasErrors
  if e then pure (.invalid, ind) else
  let k ← attempt validNode (parseBlockMappingImplicitKey f c)
  let v ← parseBlockMappingImplicitValue f c ind
  if !okNode v then pure (.invalid, v.2) else
  pure (.mappingEntry (if validNode k then k else .null) v.1, v.2)

/-- block.go:155-166 `parseBlockMappingEntry`. -/
def parseBlockMappingEntry (f : Nat) (c : Calls σ) (ind : Ind) : M σ (Node × Ind) := do
  let e ← hasErrors
  if e then pure (.invalid, ind) else
  let t ← tok
  if t.type = .mappingKey then parseBlockMappingExplicitEntry f c ind
  else parseBlockMappingImplicitEntry f c ind

/-- block.go:91-124 `parseBlockMapping`. -/
def parseBlockMapping (f : Nat) (c : Calls σ) (ind : Ind) : M σ Node := do
  let e ← hasErrors
  if e then pure .invalid else
  let i ← parseIndent f ⟨ind.value + 1, .lowerBound⟩
  if !i.1 then pure .invalid else
  let n ← parseBlockMappingEntry f c i.2
  if !okNode n then pure .invalid else
  let x ← blockEntries f (parseBlockMappingEntry f c) ([n.1], n.2)
  pure (.mapping x.1)

/-- block.go:126-152 `parseCompactMapping`. -/
def parseCompactMapping (f : Nat) (c : Calls σ) (ind : Ind) : M σ (Node × Ind) := do
  let e ← hasErrors
  if e then pure (.invalid, ind) else
  let n ← parseBlockMappingEntry f c ind
  if !okNode n then pure (.invalid, n.2) else
  let x ← blockEntries f (parseBlockMappingEntry f c) ([n.1], n.2)
  pure (.mapping x.1, x.2)

/-- block.go:50-88 `parseBlockCollection`. -/
def parseBlockCollection (f : Nat) (c : Calls σ) (ind : Ind) (ctx : PCtx) : M σ (Node × Ind) := do
  let e ← hasErrors
  if e then pure (.invalid, ind) else
  let pr ← attempt okNode (do
    let s ← parseSeparate f ind.inc ctx
    if s.1 then parseProperties f s.2 ctx else pure (.invalid, s.2))
  let cm ← parseComments f
  if !cm then pure (.invalid, pr.2.dec) else
  let n ← attempt validNode (parseSeqSpace f c pr.2.dec ctx)
  if validNode n then pure (newContentNode pr.1 n, pr.2.dec) else
  let n ← parseBlockMapping f c pr.2.dec
  if !validNode n then pure (.invalid, pr.2.dec) else
  pure (newContentNode pr.1 n, pr.2.dec)

/-- block.go:30-47 `parseBlockInBlock`. -/
def parseBlockInBlock (f : Nat) (c : Calls σ) (ind : Ind) (ctx : PCtx) : M σ (Node × Ind) := do
  let e ← hasErrors
  if e then pure (.invalid, ind) else
  let n ← attempt okNode (parseBlockScalar f ind ctx)
  if okNode n then pure n else
  let n ← parseBlockCollection f c n.2 ctx
  if okNode n then pure n else pure (.invalid, n.2)

/-- block.go:11-27 `parseBlockNode`. -/
def parseBlockNode (f : Nat) (c : Calls σ) (ind : Ind) (ctx : PCtx) : M σ (Node × Ind) := do
  let e ← hasErrors
  if e then pure (.invalid, ind) else
  let n ← attempt okNode (parseBlockInBlock f c ind ctx)
  if okNode n then pure n else
  let m ← parseFlowInBlock f c.json n.2
  if validNode m then pure (m, n.2) else pure (.invalid, n.2)

/-- block.go:335-379 `parseBlockIndented`. -/
def parseBlockIndented (f : Nat) (c : Calls σ) (ind : Ind) (ctx : PCtx) : M σ (Node × Ind) := do
  let e ← hasErrors
  if e then pure (.invalid, ind) else
  let n ← attempt validNode (do
    let i ← parseIndent f ⟨0, .lowerBound⟩
    let s ← attempt okNode (parseCompactSequence f c ⟨ind.value + 1 + i.2.value, .strict⟩)
    if okNode s then pure s.1 else
    let m ← parseCompactMapping f c s.2
    pure m.1)
  if validNode n then pure (n, ind) else
  let n ← attempt okNode (parseBlockNode f c ind ctx)
  if okNode n then pure n else
  let cm ← parseComments f
  if cm then pure (.null, n.2) else pure (.invalid, n.2)

end Verif.Parser
