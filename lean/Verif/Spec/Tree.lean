import Verif.Model.Ast

/-!
Well-formed syntax trees, as specification of the result of the parser.
-/

namespace Verif.Spec.Tree

open Verif.Ast

/-- Node properties which hold only a tag node and an anchor node (`nil` if absent). -/
inductive Properties : Node → Prop where
  | tag (s : List Char) : Properties (.properties (.tag s) .nil)
  | anchor (s : List Char) : Properties (.properties .nil (.anchor s))
  | both (s a : List Char) : Properties (.properties (.tag s) (.anchor a))

/-- Node properties which hold a tag node or an anchor node; in the place of the other one there may be the marker of a
failed parse. -/
inductive LooseProperties : Node → Prop where
  | strict (n : Node) : Properties n → LooseProperties n
  | tag (s : List Char) : LooseProperties (.properties (.tag s) (.basic .invalid))
  | anchor (s : List Char) : LooseProperties (.properties (.basic .invalid) (.anchor s))

/-- Mapping entries. -/
inductive IsEntry : Node → Prop where
  | entry (k v : Node) : IsEntry (.mappingEntry k v)

/-- Trees in which nothing is missing: the leaves are texts, aliases and nulls, mappings contain entries with a key and a
value; properties are as `props` says. -/
inductive Complete (props : Node → Prop) : Node → Prop where
  | null : Complete props .null
  | text (s : List Char) (q : Quoting) : Complete props (.text s q)
  | alias (s : List Char) : Complete props (.alias s)
  | content (p c : Node) : props p → Complete props c → Complete props (.content p c)
  | sequence (l : List Node) : (∀ e ∈ l, Complete props e) → Complete props (.sequence l)
  | mapping (l : List Node) : (∀ e ∈ l, IsEntry e) → (∀ e ∈ l, Complete props e) → Complete props (.mapping l)
  | entry (k v : Node) : Complete props k → Complete props v → Complete props (.mappingEntry k v)
  | stream (l : List Node) : (∀ e ∈ l, Complete props e) → Complete props (.stream l)

/-- Well-formed trees. -/
def WellFormed (n : Node) : Prop := Complete Properties n

end Verif.Spec.Tree
