import Verif.Model.Ast

/-!
What a tree says, independent of the parser: the words in which the tree could be spelled in a source, without blanks and
without comments.  Brackets, dashes, colons, commas, quotes and the marks of anchors, aliases and tags belong to the word;
the text of a scalar is written without its blanks, in the order of its characters.

A tree may be spelled in different ways (flow or block, the tag before or behind the anchor), therefore this is a relation.
-/

namespace Verif.Spec.Says

open Verif.Ast

/-- Space, tab or a part of a line break. -/
def blank (c : Char) : Bool := c = ' ' || c = '\t' || c = '\n' || c = '\r'

/-- The characters of a text which are not blank. -/
def ink (s : List Char) : List Char := s.filter (fun c => !blank c)

/-- There is no node. -/
def Absent (n : Node) : Prop := n = .nil ∨ n = .invalid

mutual

/-- The node may be spelled by the word. -/
inductive Says : Node → List Char → Prop
  | null : Says .null []
  | plain (s : List Char) : Says (.text s .unknown) (ink s)
  | single (s : List Char) : Says (.text s .single) ('\'' :: (ink s ++ ['\'']))
  | double (s : List Char) : Says (.text s .double) ('"' :: (ink s ++ ['"']))
  | alias (s : List Char) : Says (.alias s) ('*' :: s)
  | anchor (s : List Char) : Says (.anchor s) ('&' :: s)
  | tag (s : List Char) : Says (.tag s) ('!' :: s)
  | tagAnchor (t a : Node) (u v : List Char) : Says t u → Says a v → Says (.properties t a) (u ++ v)
  | anchorTag (t a : Node) (u v : List Char) : Says t u → Says a v → Says (.properties t a) (v ++ u)
  | onlyTag (t a : Node) (u : List Char) : Says t u → Absent a → Says (.properties t a) u
  | onlyAnchor (t a : Node) (v : List Char) : Absent t → Says a v → Says (.properties t a) v
  | content (p c : Node) (u v : List Char) : Says p u → Says c v → Says (.content p c) (u ++ v)
  | entry (k v : Node) (a b : List Char) : Says k a → Says v b → Says (.mappingEntry k v) (a ++ ':' :: b)
  /-- a key without a value -/
  | key (k : Node) (a : List Char) : Says k a → Says (.mappingEntry k .null) a
  | noItems : Says (.sequence []) ['[', ']']
  | row (es : List Node) (u : List Char) : Row es u → Says (.sequence es) ('[' :: (u ++ [']']))
  | dashed (es : List Node) (u : List Char) : Dashed es u → Says (.sequence es) u
  | noEntries : Says (.mapping []) ['{', '}']
  | pairs (es : List Node) (u : List Char) : Row es u → Says (.mapping es) ('{' :: (u ++ ['}']))
  | listed (es : List Node) (u : List Char) : Listed es u → Says (.mapping es) u

/-- One or more nodes with commas between them. -/
inductive Row : List Node → List Char → Prop
  | one (e : Node) (u : List Char) : Says e u → Row [e] u
  | more (es : List Node) (e : Node) (u v : List Char) : Row es u → Says e v → Row (es ++ [e]) (u ++ ',' :: v)

/-- One or more nodes, each behind a dash. -/
inductive Dashed : List Node → List Char → Prop
  | one (e : Node) (u : List Char) : Says e u → Dashed [e] ('-' :: u)
  | more (es : List Node) (e : Node) (u v : List Char) : Dashed es u → Says e v → Dashed (es ++ [e]) (u ++ '-' :: v)

/-- One or more nodes, one behind the other. -/
inductive Listed : List Node → List Char → Prop
  | one (e : Node) (u : List Char) : Says e u → Listed [e] u
  | more (es : List Node) (e : Node) (u v : List Char) : Listed es u → Says e v → Listed (es ++ [e]) (u ++ v)

end

/-- The documents of a stream, one behind the other. -/
inductive Stream : List Node → List Char → Prop
  | none : Stream [] []
  | more (ds : List Node) (d : Node) (u v : List Char) : Stream ds u → Says d v → Stream (ds ++ [d]) (u ++ v)

end Verif.Spec.Says
