import Verif.Model.Ast

/-!
Drawings of trees, line by line (as the command `tree` makes them), and the outline of a syntax tree.
-/

namespace Verif.Drawing

open Verif.Ast

/-- A tree of nodes with types and texts. -/
inductive Outline where
  | node (type : NodeType) (text : List Char) (children : List Outline)

/-- What stands before a node: the last one among its siblings has a corner. -/
def edge (last : Bool) : List Char := if last then "└── ".toList else "├── ".toList

/-- What stands before everything below a node. -/
def gap (last : Bool) : List Char := if last then "    ".toList else "│   ".toList

mutual
/-- The lines of a node and of everything below it. -/
def draw (label : NodeType → List Char → List Char) (indent : List Char) (last : Bool) : Outline → List (List Char)
  | .node ty t cs => (indent ++ edge last ++ label ty t) :: drawAll label (indent ++ gap last) cs
def drawAll (label : NodeType → List Char → List Char) (indent : List Char) : List Outline → List (List Char)
  | [] => []
  | c :: cs => draw label indent cs.isEmpty c ++ drawAll label indent cs
end

/-- The lines as a text. -/
def unlines (ls : List (List Char)) : List Char := ls.flatMap (· ++ ['\n'])

mutual
/-- The outline of a syntax tree, and those of its children which are there. -/
def outline : Node → List Outline
  | .nil => []
  | .basic ty => [.node ty [] []]
  | .stream docs => [.node .stream [] (outlines docs)]
  | .properties t a => [.node .properties [] (outline t ++ outline a)]
  | .tag t => [.node .tag t []]
  | .anchor t => [.node .anchor t []]
  | .alias t => [.node .alias t []]
  | .blockHeader _ _ => [.node .blockHeader [] []]
  | .text t _ => [.node .text t []]
  | .content p c => [.node .content [] (outline p ++ outline c)]
  | .indent _ => [.node .indent [] []]
  | .sequence es => [.node .sequence [] (outlines es)]
  | .mapping es => [.node .mapping [] (outlines es)]
  | .mappingEntry k v => [.node .mappingEntry [] (outline k ++ outline v)]
  | .null => [.node .null [] []]
def outlines : List Node → List Outline
  | [] => []
  | n :: ns => outline n ++ outlines ns
end

mutual
/-- No nil among the documents of a stream and the entries of a collection. -/
def Whole : Node → Prop
  | .stream docs => AllWhole docs
  | .properties t a => Whole t ∧ Whole a
  | .content p c => Whole p ∧ Whole c
  | .sequence es => AllWhole es
  | .mapping es => AllWhole es
  | .mappingEntry k v => Whole k ∧ Whole v
  | _ => True
def AllWhole : List Node → Prop
  | [] => True
  | n :: ns => (n.type? ≠ none ∧ Whole n) ∧ AllWhole ns
end

end Verif.Drawing
