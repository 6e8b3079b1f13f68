import Verif.Model.GoyamlReader
import Verif.Model.GoyamlBuilder

/-!
The tree made by the builder of the goyaml engine, as a graph which its decoder reads.
-/

namespace Verif.GenCode

open Verif.GoyamlBuilder (GNode)

mutual
/-- The node at the address `n` is the given tree, without anchors (2 is `yaml.DoubleQuotedStyle`). -/
inductive Holds (h : Goyaml.Heap) : Nat → GNode → Prop
  | scalar {n tag value q} : (h n).kind = .scalar → (h n).tag = tag → (h n).value = value →
      (h n).style = (if q then 2 else 0) → Holds h n (.scalar tag value q)
  | sequence {n gs} : (h n).kind = .sequence → HoldsAll h (h n).content gs → Holds h n (.sequence gs)
  | mapping {n gs} : (h n).kind = .mapping → HoldsAll h (h n).content gs → Holds h n (.mapping gs)
inductive HoldsAll (h : Goyaml.Heap) : List Nat → List GNode → Prop
  | nil : HoldsAll h [] []
  | cons {n ns g gs} : Holds h n g → HoldsAll h ns gs → HoldsAll h (n :: ns) (g :: gs)
end

/-- What gopkg.in/yaml.v3 `Node.ShortTag` says about the scalars made by the builder: without a tag, double quoted scalars
are strings, and plain scalars are null only if their text is a null text. -/
structure Tags (lib : GoyamlReader.RLib) : Prop where
  quoted : ∀ c : Goyaml.Cell, c.kind = .scalar → c.tag = [] → c.style = 2 → lib.nullTag c = false
  plain : ∀ c : Goyaml.Cell, c.kind = .scalar → c.tag = [] → c.style = 0 → Schema.isNull c.value = false →
    lib.nullTag c = false
  null : ∀ c : Goyaml.Cell, c.kind = .scalar → c.tag = "!!null".toList → lib.nullTag c = true

end Verif.GenCode
