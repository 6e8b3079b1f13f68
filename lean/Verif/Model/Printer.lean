import Verif.Model.Ast

/-!
Model of `engines/yayamls/ast/astprint/printer.go`: drawings of syntax trees.

The writer is the text written so far; errors of the writer are ignored by the code (`fmt.Fprint` is called without looking at
its result), so that they have no influence on the rest.  `none` is the panic of a method call on a nil interface value.
`levelsEnded` is a list: the code saves the slice header and appends to it, which never changes the elements below the length
saved.
-/

namespace Verif.Printer

open Verif.Ast

/-- printer.go:12-16. -/
def edgeLink : List Char := ['│']
def edgeMid : List Char := "├──".toList
def edgeEnd : List Char := "└──".toList

/-- printer.go:18. -/
def indentSize : Nat := 3

/-- printer.go:22-28 `Printer`. -/
structure Printer where
  edgeType : List Char
  level : Nat
  levelsEnded : List Nat
  w : List Char
  printedAny : Bool

/-- node.go:52-92 `NodeType.String`. -/
def typeName : NodeType → List Char
  | .invalid => "invalid".toList
  | .document => "document".toList
  | .content => "content".toList
  | .mapping => "mapping".toList
  | .mappingEntry => "mapping_entry".toList
  | .sequence => "sequence".toList
  | .comment => "comment".toList
  | .directive => "directive".toList
  | .tag => "tag".toList
  | .anchor => "anchor".toList
  | .alias => "alias".toList
  | .stream => "stream".toList
  | .documentPrefix => "document_prefix".toList
  | .documentSuffix => "document_suffix".toList
  | .indent => "indent".toList
  | .properties => "properties".toList
  | .blockHeader => "block_header".toList
  | .text => "text".toList
  | .null => "null".toList

/-- The method `Text()` of the interface `Texter` (node.go:142-146); `none` for nodes which do not have it. -/
def text? : Node → Option (List Char)
  | .tag t => some t
  | .anchor t => some t
  | .alias t => some t
  | .text t _ => some t
  | _ => none

/-- `strings.ReplaceAll(s, "\n", "\\n")`, called at printer.go:76. -/
def replaceBreaks : List Char → List Char
  | [] => []
  | c :: s => if c = '\n' then '\\' :: 'n' :: replaceBreaks s else c :: replaceBreaks s

/-- printer.go:101-108 `isLevelEnded`. -/
def isLevelEnded (p : Printer) (l : Nat) : Bool := p.levelsEnded.any (fun x => decide (x = l))

/-- printer.go:64-70: the loop writing the edges of the levels above. -/
def levels (p : Printer) : Nat → List Char
  | 0 => []
  | i + 1 => levels p i ++
    if isLevelEnded p i then List.replicate (indentSize + 1) ' ' else edgeLink ++ List.replicate indentSize ' '

/-- printer.go:63-81 `printValueWithLevel`. -/
def printValueWithLevel (p : Printer) (n : Node) : Option Printer :=
  match n.type? with
  | none => none
  | some ty =>
    let head := levels p p.level ++ p.edgeType ++ " [".toList ++ typeName ty ++ "] ".toList
    match text? n with
    | some t => some { p with w := p.w ++ (head ++ replaceBreaks t ++ ['\n']) }
    | none => some { p with w := p.w ++ (head ++ ['\n']) }

/-- printer.go:83-91 `printRoot`. -/
def printRoot (p : Printer) (n : Node) : Option Printer :=
  match n.type? with
  | none => none
  | some ty =>
    let head := "[".toList ++ typeName ty ++ "] ".toList
    match text? n with
    | some t => some { p with w := p.w ++ (head ++ t ++ ['\n']), printedAny := true }
    | none => some { p with w := p.w ++ (head ++ ['\n']), printedAny := true }

/-- printer.go:93-99 `printValue`. -/
def printValue (p : Printer) (n : Node) : Option Printer := if p.printedAny then printValueWithLevel p n else printRoot p n

/-- Is it the nil interface value? -/
def isNil : Node → Bool
  | .nil => true
  | _ => false

/-- For example printer.go:119-123: the edge of the next child. -/
def mark (last : Bool) (p : Printer) : Printer :=
  if last then { p with levelsEnded := p.levelsEnded ++ [p.level], edgeType := edgeEnd } else { p with edgeType := edgeMid }

/-- The block which all visiting methods have in common, for example printer.go:119-127; `accept` is `n.Accept(p)`. -/
def child (last : Bool) (n : Node) (accept : Printer → Option Printer) (p : Printer) : Option Printer := do
  let p ← printValue (mark last p) n
  let p ← accept { p with level := p.level + 1 }
  pure { p with level := p.level - 1 }

/-- printer.go:145-177, 226-258 and 269-301: the two children of a node, if they are not nil. -/
def pair (a b : Node) (acceptA acceptB : Printer → Option Printer) (p : Printer) : Option Printer := do
  let maxCount := (if isNil a then 0 else 1) + (if isNil b then 0 else 1)
  let p ← if isNil a then some p else child (decide (0 = maxCount - 1)) a acceptA p
  let count := if isNil a then 0 else 1
  if isNil b then some p else child (decide (count = maxCount - 1)) b acceptB p

mutual
/-- The methods `Accept` (node.go) and `VisitXxxNode` (printer.go:110-302); the deferred function restores the ended levels. -/
def accept : Node → Printer → Option Printer
  -- 110-129
  | .stream docs, p => (visitAll docs p).map fun q => { q with levelsEnded := p.levelsEnded }
  -- 139-178
  | .content a b, p => (pair a b (accept a) (accept b) p).map fun q => { q with levelsEnded := p.levelsEnded }
  -- 180-198
  | .sequence es, p => (visitAll es p).map fun q => { q with levelsEnded := p.levelsEnded }
  -- 200-218
  | .mapping es, p => (visitAll es p).map fun q => { q with levelsEnded := p.levelsEnded }
  -- 220-259
  | .mappingEntry a b, p => (pair a b (accept a) (accept b) p).map fun q => { q with levelsEnded := p.levelsEnded }
  -- 263-302
  | .properties a b, p => (pair a b (accept a) (accept b) p).map fun q => { q with levelsEnded := p.levelsEnded }
  -- a call on the nil interface value
  | .nil, _ => none
  -- 131-137, 261 and node.go:168, 307, 415
  | _, p => some p
/-- The loops at printer.go:118-128, 187-197 and 207-217. -/
def visitAll : List Node → Printer → Option Printer
  | [], p => some p
  | n :: ns, p => do
    let p ← child ns.isEmpty n (accept n) p
    visitAll ns p
end

/-- printer.go:30-36 `NewPrinter`, then 38-61 `Print` with a writer which is not nil: `some none` is the error about the nil
node, `some (some s)` the written text, `none` a panic. -/
def print (root : Node) : Option (Option (List Char)) :=
  if isNil root then some none
  else do
    let p ← printValue { edgeType := edgeMid, level := 0, levelsEnded := [], w := [], printedAny := false } root
    let p ← accept root p
    pure (some p.w)

end Verif.Printer
