import Verif.Spec.BlockText
import Verif.Spec.Layout

/-!
Trees which are written in block style and can be read back: those of `Spec/PlainTree.lean`, with aliases as items, keys and
values, with texts of several lines as items and values, and with tags and anchors at scalars and at values of mappings.
Nothing here refers to the lexer, the parser or the writer.
-/

namespace Verif.WritableTree

open Verif.Ast Verif.BlockText

/-- There is no node. -/
inductive Absent : Node → Prop
  | nil : Absent .nil
  | invalid : Absent (.basic .invalid)

/-- A tag, an anchor, or both. -/
inductive Marks : Node → Prop
  | both {t a : List Char} : Name t → '-' ∉ t → Name a → Marks (.properties (.tag t) (.anchor a))
  | tag {t : List Char} {x : Node} : Name t → '-' ∉ t → Absent x → Marks (.properties (.tag t) x)
  | anchor {a : List Char} {x : Node} : Absent x → Name a → Marks (.properties x (.anchor a))

/-- A scalar or an alias. -/
inductive Key : Node → Prop
  | scalar {n : Node} : PlainTree.Scalar n → Key n
  | ref {a : List Char} : Name a → Key (.alias a)

/-- A text of several lines: it does not start with white space or a line break, and no line has a quote in its first word or
starts with an opening bracket. -/
structure Prose (t : List Char) : Prop where
  several : '\n' ∈ t
  first : ∃ c r, t = c :: r ∧ c ∉ [' ', '\t', '\n']
  lines : ∀ l ∈ Layout.linesOf t, l = [] ∨ LitLine l

/-- A scalar with or without properties, or an alias. -/
inductive Leaf : Node → Prop
  | key {n : Node} : Key n → Leaf n
  | sentence {t : List Char} {q : Quoting} : PlainTree.Sentence t → PlainTree.Bare q → Leaf (.text t q)
  | marked {p n : Node} : Marks p → PlainTree.Field n → Leaf (.content p n)
  | prose {t : List Char} : Prose t → Leaf (.text t .absent)
  | markedProse {p : Node} {t : List Char} : Marks p → Prose t → Leaf (.content p (.text t .absent))

mutual
/-- An item of a sequence. -/
inductive Item : Node → Prop
  | leaf {n : Node} : Leaf n → Item n
  | coll {n : Node} : Coll n → Item n
/-- A value of a mapping. -/
inductive Value : Node → Prop
  | item {n : Node} : Item n → Value n
  | marked {p n : Node} : Marks p → Coll n → Value (.content p n)
/-- A collection. -/
inductive Coll : Node → Prop
  | sequence {e : Node} {es : List Node} : Item e → Items es → Coll (.sequence (e :: es))
  | mapping {e : Node} {es : List Node} : Entry e → Entries es → Coll (.mapping (e :: es))
/-- The other items of a sequence. -/
inductive Items : List Node → Prop
  | nil : Items []
  | cons {e : Node} {es : List Node} : Item e → Items es → Items (e :: es)
/-- An entry of a mapping. -/
inductive Entry : Node → Prop
  | entry {k v : Node} : Key k → Value v → Entry (.mappingEntry k v)
/-- The other entries of a mapping. -/
inductive Entries : List Node → Prop
  | nil : Entries []
  | cons {e : Node} {es : List Node} : Entry e → Entries es → Entries (e :: es)
end

/-- A document: a collection, a scalar or an alias. -/
inductive Document : Node → Prop
  | coll {n : Node} : Coll n → Document n
  | key {n : Node} : Key n → Document n
  | sentence {t : List Char} {q : Quoting} : PlainTree.Sentence t → PlainTree.Bare q → Document (.text t q)

mutual
/-- What a reader who sees the text only can know: texts with their quotes, nulls as their spelling; absent properties are nil. -/
def reread : Node → Node
  | .null => .text ['n', 'u', 'l', 'l'] .unknown
  | .text t q => .text t (PlainTree.seen q)
  | .sequence es => .sequence (rereads es)
  | .mapping es => .mapping (rereads es)
  | .mappingEntry k v => .mappingEntry (reread k) (reread v)
  | .properties t a => .properties (absence t) (absence a)
  | .content p n => .content (reread p) (reread n)
  | n => n

/-- The same, for lists of children. -/
def rereads : List Node → List Node
  | [] => []
  | n :: ns => reread n :: rereads ns
end

mutual
/-- Is there a null in the tree? -/
def hasNull : Node → Bool
  | .null => true
  | .sequence es => haveNull es
  | .mapping es => haveNull es
  | .mappingEntry k v => hasNull k || hasNull v
  | .content _ n => hasNull n
  | _ => false

/-- The same, for lists of children. -/
def haveNull : List Node → Bool
  | [] => false
  | n :: ns => hasNull n || haveNull ns
end

end Verif.WritableTree
