/-!
Model of `engines/yayamls/ast/node.go`: the syntax tree.

A Go `Node` is a pointer to one of the node structures, or `nil`.  Apart from the tree builder (see
`Verif.Model.Builder`) nobody mutates a node after its creation, therefore trees are values here.
-/

namespace Verif.Ast

/-- node.go:9-50 `NodeType`. -/
inductive NodeType where
  | invalid | document | content | mapping | mappingEntry | sequence | comment | directive | tag | anchor | alias
  | stream | documentPrefix | documentSuffix | indent | properties | blockHeader | text | null
deriving DecidableEq, Repr

/-- node.go:98-108 `ChompingType`. -/
inductive Chomping where
  | unknown | clip | strip | keep
deriving DecidableEq, Repr

/-- node.go:122-132 `QuotingType`. -/
inductive Quoting where
  | unknown | absent | single | double
deriving DecidableEq, Repr

/-- node.go:135-517 `Node` and its implementations.  `nil` is the nil interface value. -/
inductive Node where
  | nil
  /-- node.go:159-180 `BasicNode` -/
  | basic (ty : NodeType)
  /-- node.go:182-202 -/
  | stream (docs : List Node)
  /-- node.go:204-230 -/
  | properties (tag anchor : Node)
  /-- node.go:232-252 -/
  | tag (text : List Char)
  /-- node.go:254-274 -/
  | anchor (text : List Char)
  /-- node.go:276-296 -/
  | alias (text : List Char)
  /-- node.go:298-324 -/
  | blockHeader (chomping : Chomping) (indentation : Int)
  /-- node.go:344-373 -/
  | text (text : List Char) (quoting : Quoting)
  /-- node.go:375-401 -/
  | content (properties content : Node)
  /-- node.go:403-421 -/
  | indent (n : Int)
  /-- node.go:423-445 -/
  | sequence (entries : List Node)
  /-- node.go:447-469 -/
  | mapping (entries : List Node)
  /-- node.go:471-501 -/
  | mappingEntry (key value : Node)
  /-- node.go:503-517 -/
  | null
deriving Repr, Inhabited

/-- node.go:170-174 `NewInvalidNode`. -/
def Node.invalid : Node := .basic .invalid

/-- The methods `Type()` of the node structures (`none` for the nil interface value, on which the call panics). -/
def Node.type? : Node → Option NodeType
  | .nil => none
  | .basic ty => some ty
  | .stream _ => some .stream
  | .properties _ _ => some .properties
  | .tag _ => some .tag
  | .anchor _ => some .anchor
  | .alias _ => some .alias
  | .blockHeader _ _ => some .blockHeader
  | .text _ _ => some .text
  | .content _ _ => some .content
  | .indent _ => some .indent
  | .sequence _ => some .sequence
  | .mapping _ => some .mapping
  | .mappingEntry _ _ => some .mappingEntry
  | .null => some .null

/-- node.go:155-157 `ValidNode`. -/
def validNode (n : Node) : Bool :=
  match n with
  | .nil => false
  | .basic .invalid => false
  | _ => true

end Verif.Ast
