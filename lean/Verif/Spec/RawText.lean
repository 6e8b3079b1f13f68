import Verif.Model.GoyamlGraph

/-!
How the text marshalled from a graph is read on its own, and which value a graph stands for.
Independent of the raw transformer.
-/

namespace Verif.RawText

open Verif.Goyaml

/-- A node with elements of its own. -/
def Coll (k : Kind) : Prop := k = .document ∨ k = .mapping ∨ k = .sequence

/-- The anchors defined so far, the latest first. -/
abbrev Env := List (List Char × Nat)

/-- The anchor of a node is defined where the node begins. -/
def define (h : Heap) (n : Nat) (env : Env) : Env :=
  if (h n).anchor = [] then env else ((h n).anchor, n) :: env

mutual
/-- The text of the node can be read after the anchors `env` were defined: every alias in it is resolved by the latest
definition of its name, and this is the node it stands for in the graph; afterwards the anchors `env'` are defined. -/
inductive Reads (h : Heap) : Env → Nat → Env → Prop
  | leaf (env n) : ¬ Coll (h n).kind → (h n).kind ≠ .alias → Reads h env n (define h n env)
  | alias (env n t) : (h n).kind = .alias → (h n).alias = some t → env.lookup (h n).value = some t → Reads h env n env
  | coll (env env' n) : Coll (h n).kind → ReadsAll h (define h n env) (h n).content env' → Reads h env n env'

/-- The texts of nodes in a row. -/
inductive ReadsAll (h : Heap) : Env → List Nat → Env → Prop
  | nil (env) : ReadsAll h env [] env
  | cons (env env' env'' n ns) : Reads h env n env' → ReadsAll h env' ns env'' → ReadsAll h env (n :: ns) env''
end

/-- A value without aliases. -/
inductive Tree where
  | node (kind : Kind) (style : Nat) (tag value : List Char) (elems : List Tree)

mutual
/-- The value a node stands for. -/
inductive Value (h : Heap) : Nat → Tree → Prop
  | leaf (n) : ¬ Coll (h n).kind → (h n).kind ≠ .alias →
      Value h n (.node (h n).kind (h n).style (h n).tag (h n).value [])
  | alias (n t v) : (h n).kind = .alias → (h n).alias = some t → Value h t v → Value h n v
  | coll (n vs) : Coll (h n).kind → Values h (h n).content vs →
      Value h n (.node (h n).kind (h n).style (h n).tag (h n).value vs)

inductive Values (h : Heap) : List Nat → List Tree → Prop
  | nil : Values h [] []
  | cons (n ns v vs) : Value h n v → Values h ns vs → Values h (n :: ns) (v :: vs)
end

end Verif.RawText
