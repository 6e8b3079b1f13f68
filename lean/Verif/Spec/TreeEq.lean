import Verif.Model.Ast

/-!
Equality of syntax trees as a reader of `Comparator.Equal` understands it: same structure, same texts.  The quoting of a
text does not count, and neither do the nodes without a meaning of their own (invalid nodes, block headers, indentation):
they are like missing nodes.
-/

namespace Verif.TreeEq

open Verif.Ast

/-- A child which is missing, or a node without meaning. -/
inductive Missing : Node → Prop
  | nil : Missing .nil
  | basic {ty} : Missing (.basic ty)
  | blockHeader {c i} : Missing (.blockHeader c i)
  | indent {i} : Missing (.indent i)

mutual
/-- Same structure, same texts. -/
inductive Same : Node → Node → Prop
  | missing {a b} : Missing a → Missing b → Same a b
  | stream {as bs} : SameList as bs → Same (.stream as) (.stream bs)
  | properties {t a t' a'} : Same t t' → Same a a' → Same (.properties t a) (.properties t' a')
  | tag {t} : Same (.tag t) (.tag t)
  | anchor {t} : Same (.anchor t) (.anchor t)
  | alias {t} : Same (.alias t) (.alias t)
  | text {t q q'} : Same (.text t q) (.text t q')
  | content {p c p' c'} : Same p p' → Same c c' → Same (.content p c) (.content p' c')
  | sequence {as bs} : SameList as bs → Same (.sequence as) (.sequence bs)
  | mapping {as bs} : SameList as bs → Same (.mapping as) (.mapping bs)
  | mappingEntry {k v k' v'} : Same k k' → Same v v' → Same (.mappingEntry k v) (.mappingEntry k' v')
  | null : Same .null .null

/-- The same, for lists of children. -/
inductive SameList : List Node → List Node → Prop
  | nil : SameList [] []
  | cons {a b as bs} : Same a b → SameList as bs → SameList (a :: as) (b :: bs)
end

/-- Is the node there? -/
def present : Node → Bool
  | .nil | .basic _ | .blockHeader _ _ | .indent _ => false
  | _ => true

/-- Which of the nodes are there. -/
def here (ns : List Node) : List Bool := ns.map present

mutual
/-- Which children are there: for every node with a meaning, in preorder, the list of its children, each being there or
missing. -/
def shape : Node → List (List Bool)
  | .stream docs => here docs :: shapes docs
  | .properties t a => here [a, t] :: (shape a ++ shape t)
  | .content p c => here [p, c] :: (shape p ++ shape c)
  | .sequence es => here es :: shapes es
  | .mapping es => here es :: shapes es
  | .mappingEntry k v => here [k, v] :: (shape k ++ shape v)
  | .tag _ | .anchor _ | .alias _ | .text _ _ | .null => [[]]
  | .nil | .basic _ | .blockHeader _ _ | .indent _ => []

/-- The same, for lists of children. -/
def shapes : List Node → List (List Bool)
  | [] => []
  | n :: ns => shape n ++ shapes ns
end

mutual
/-- A child of a stream, sequence or mapping is never the nil interface value. -/
inductive NoNil : Node → Prop
  | basic {ty} : NoNil (.basic ty)
  | blockHeader {c i} : NoNil (.blockHeader c i)
  | indent {i} : NoNil (.indent i)
  | stream {as} : NoNils as → NoNil (.stream as)
  | properties {t a} : NilOr t → NilOr a → NoNil (.properties t a)
  | tag {t} : NoNil (.tag t)
  | anchor {t} : NoNil (.anchor t)
  | alias {t} : NoNil (.alias t)
  | text {t q} : NoNil (.text t q)
  | content {p c} : NilOr p → NilOr c → NoNil (.content p c)
  | sequence {as} : NoNils as → NoNil (.sequence as)
  | mapping {as} : NoNils as → NoNil (.mapping as)
  | mappingEntry {k v} : NilOr k → NilOr v → NoNil (.mappingEntry k v)
  | null : NoNil .null

/-- The nil interface value, or such a tree. -/
inductive NilOr : Node → Prop
  | nil : NilOr .nil
  | node {n} : NoNil n → NilOr n

/-- The same, for lists of children. -/
inductive NoNils : List Node → Prop
  | nil : NoNils []
  | cons {a as} : NoNil a → NoNils as → NoNils (a :: as)
end

end Verif.TreeEq
