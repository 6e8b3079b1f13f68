import Verif.Spec.Says

/-!
What can be counted in a tree: the texts of its scalars and aliases in document order, and the number of marks without which
it cannot be spelled.
-/

namespace Verif.Spec.Says

open Verif.Ast

mutual

/-- The texts of scalars and aliases in document order, without blanks. -/
def gist : Node → List Char
  | .text s _ => ink s
  | .alias s => s
  | .content _ c => gist c
  | .sequence es => gists es
  | .mapping es => gists es
  | .mappingEntry k v => gist k ++ gist v
  | .stream ds => gists ds
  | _ => []

/-- The texts of the nodes, one behind the other. -/
def gists : List Node → List Char
  | [] => []
  | n :: ns => gist n ++ gists ns

end

/-- `1` if the marks are the same. -/
def same (c d : Char) : Nat := if c = d then 1 else 0

/-- A mapping entry which has a value needs a colon. -/
def colon (c : Char) : Node → Nat
  | .null => 0
  | _ => same c ':'

mutual

/-- How often a mark is needed: one ampersand per anchor, one asterisk per alias, one exclamation mark per tag, two quotes
per quoted text, one colon per mapping entry with a value. -/
def marks (c : Char) : Node → Nat
  | .text _ .single => 2 * same c '\''
  | .text _ .double => 2 * same c '"'
  | .alias _ => same c '*'
  | .anchor _ => same c '&'
  | .tag _ => same c '!'
  | .properties t a => marks c t + marks c a
  | .content p n => marks c p + marks c n
  | .sequence es => marksAll c es
  | .mapping es => marksAll c es
  | .mappingEntry k v => marks c k + colon c v + marks c v
  | .stream ds => marksAll c ds
  | _ => 0

/-- The marks of all nodes. -/
def marksAll (c : Char) : List Node → Nat
  | [] => 0
  | n :: ns => marks c n + marksAll c ns

end

end Verif.Spec.Says
