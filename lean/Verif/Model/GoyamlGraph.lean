/-!
Nodes of gopkg.in/yaml.v3 (`yaml.Node`) as a graph: the goyaml engine decodes such graphs; aliases point at nodes which
also occur elsewhere.
-/

namespace Verif.Goyaml

/-- gopkg.in/yaml.v3 `Kind`; `zero` is the kind of the zero node. -/
inductive Kind where
  | zero
  | document
  | sequence
  | mapping
  | scalar
  | alias
deriving DecidableEq, Repr

/-- gopkg.in/yaml.v3 `Node`, without comments, line and column.  `alias` is the field `Alias` (`none`: nil), `content` the
field `Content` (without nil pointers), `style` the field `Style`. -/
structure Cell where
  kind : Kind := .zero
  style : Nat := 0
  tag : List Char := []
  value : List Char := []
  anchor : List Char := []
  alias : Option Nat := none
  content : List Nat := []
deriving DecidableEq, Repr

/-- The memory: the node at every address. -/
abbrev Heap := Nat → Cell

/-- Assignment to the node at an address. -/
def Heap.write (h : Heap) (a : Nat) (c : Cell) : Heap := fun b => if b = a then c else h b

end Verif.Goyaml
