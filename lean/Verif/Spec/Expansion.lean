import Verif.Model.WriterKeeper

/-!
What a tree means together with a keeper of anchors: aliases whose anchors do not occur earlier in the document stand for the trees which
the keeper knows.  Independent of the writer; only the interface of the keeper is used.
-/

namespace Verif.Expansion

open Verif.Ast Verif.WriterKeeper

variable {κ : Type}

/-- What is known at a place of a document: the keeper, the anchors before the place and the number of aliases which nobody knows. -/
structure Place (κ : Type) where
  keeper : κ
  met : List (List Char)
  unknown : Nat

/-- Nodes which stand for themselves. -/
inductive Leaf : Node → Prop
  | basic {ty} : Leaf (.basic ty)
  | blockHeader {c i} : Leaf (.blockHeader c i)
  | indent {i} : Leaf (.indent i)
  | tag {t} : Leaf (.tag t)
  | text {t q} : Leaf (.text t q)
  | null : Leaf .null

/-- Collections, perhaps with properties. -/
inductive Collection : Node → Prop
  | sequence {es} : Collection (.sequence es)
  | mapping {es} : Collection (.mapping es)
  | content {p c} : Collection c → Collection (.content p c)

mutual
/-- `Expands K Key a t t' b`: at the place `a` the tree `t` stands for `t'`, and `b` is the place after it.  `Key` relates keys and what they
stand for. -/
inductive Expands (K : Keeper κ) (Key : Node → Node → Prop) : Place κ → Node → Node → Place κ → Prop
  | leaf {a n} : Leaf n → Expands K Key a n n a
  | anchor {a t} : Expands K Key a (.anchor t) (.anchor t) ⟨K.store a.keeper t, t :: a.met, a.unknown⟩
  /-- an alias to an anchor of the document -/
  | met {a t} : t ∈ a.met → Expands K Key a (.alias t) (.alias t) a
  /-- an alias which the keeper knows -/
  | alias {a t n n' b} : t ∉ a.met → K.deref a.keeper t = some n → validNode n = true → Expands K Key a n n' b →
      Expands K Key a (.alias t) n' b
  | nothing {a t n} : t ∉ a.met → K.deref a.keeper t = some n → validNode n = false → Expands K Key a (.alias t) .invalid a
  /-- an alias which nobody knows -/
  | unknown {a t} : t ∉ a.met → K.deref a.keeper t = none →
      Expands K Key a (.alias t) .invalid ⟨a.keeper, a.met, a.unknown + 1⟩
  | stream {a es es' b} : ExpandsList K Key a es es' b → Expands K Key a (.stream es) (.stream es') b
  | sequence {a es es' b} : ExpandsList K Key a es es' b → Expands K Key a (.sequence es) (.sequence es') b
  | mapping {a es es' b} : ExpandsList K Key a es es' b → Expands K Key a (.mapping es) (.mapping es') b
  | entry {a k k' b v v' c} : Expands K Key a k k' b → Key k k' → Expands K Key b v v' c →
      Expands K Key a (.mappingEntry k v) (.mappingEntry k' v') c
  | properties {a t t' b n n' c} : ExpandsOpt K Key a t t' b → ExpandsOpt K Key b n n' c →
      Expands K Key a (.properties t n) (.properties t' n') c
  /-- without properties -/
  | bare {a p n n' b} : validNode p = false → Expands K Key a n n' b → Expands K Key a (.content p n) (.content p n') b
  | content {a p p' b n n' c} : validNode p = true → validNode p' = true → Expands K Key a p p' b →
      Expands K Key ⟨K.bind b.keeper (.content p n), b.met, b.unknown⟩ n n' c → Expands K Key a (.content p n) (.content p' n') c

/-- The tag or the anchor of properties, which may be missing. -/
inductive ExpandsOpt (K : Keeper κ) (Key : Node → Node → Prop) : Place κ → Node → Node → Place κ → Prop
  | missing {a n} : validNode n = false → ExpandsOpt K Key a n n a
  | given {a n n' b} : validNode n = true → validNode n' = true → Expands K Key a n n' b → ExpandsOpt K Key a n n' b

/-- One tree after the other. -/
inductive ExpandsList (K : Keeper κ) (Key : Node → Node → Prop) : Place κ → List Node → List Node → Place κ → Prop
  | nil {a} : ExpandsList K Key a [] [] a
  | cons {a e e' b es es' c} : Expands K Key a e e' b → ExpandsList K Key b es es' c → ExpandsList K Key a (e :: es) (e' :: es') c
end

/-- Anchors and aliases, in the order of the document. -/
inductive Name where
  | anchor (t : List Char)
  | alias (t : List Char)
deriving DecidableEq

mutual
/-- The anchors and aliases of a tree, in the order of the document. -/
def names : Node → List Name
  | .nil | .basic _ | .tag _ | .blockHeader _ _ | .text _ _ | .indent _ | .null => []
  | .anchor t => [.anchor t]
  | .alias t => [.alias t]
  | .stream es | .sequence es | .mapping es => namesList es
  | .properties t a => names t ++ names a
  | .content p c => names p ++ names c
  | .mappingEntry k v => names k ++ names v

/-- See `names`. -/
def namesList : List Node → List Name
  | [] => []
  | e :: es => names e ++ namesList es
end

/-- Every alias comes after an anchor of its name; `met` are anchors of earlier text. -/
def Closed (met : List (List Char)) (ns : List Name) : Prop :=
  ∀ l r t, ns = l ++ Name.alias t :: r → t ∈ met ∨ Name.anchor t ∈ l

end Verif.Expansion
