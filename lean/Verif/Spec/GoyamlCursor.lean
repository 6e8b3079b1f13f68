import Verif.Model.GoyamlReader
import Verif.Spec.DecoderCursor

/-!
The documents of the goyaml engine as documents of a cursor.
-/

namespace Verif.GoyamlCursor

open Verif.Generic Verif.Goyaml Verif.Decoder Verif.DecoderCursor
open Verif.GoyamlReader (RLib)

/-- A node without aliases below it: a scalar, or a sequence or mapping of such nodes. -/
inductive Tree (h : Heap) : Nat → Prop
  | scalar {n} : (h n).kind = .scalar → Tree h n
  | sequence {n} : (h n).kind = .sequence → (∀ c ∈ (h n).content, Tree h c) → Tree h n
  | mapping {n} : (h n).kind = .mapping → (∀ c ∈ (h n).content, Tree h c) → Tree h n

/-- A call which reads a scalar with a text in the class. -/
def scalarIf (c : Cell) (p : Bool) : Verdict := if c.kind = .scalar ∧ p = true then .whole else .deny

/-- What the calls accept. -/
def verdict (lib : RLib) (c : Cell) : Expecter → Verdict
  | .null => scalarIf c (lib.nullTag c)
  | .integer => scalarIf c (Schema.isInteger c.value)
  | .boolean => scalarIf c (Schema.isBoolean c.value)
  | .float => scalarIf c (Schema.isFloat c.value)
  | .string => scalarIf c (!lib.nullTag c)
  | .timestamp => scalarIf c (lib.isTimestamp c.value)
  | .sequence => if c.kind = .sequence then .opens else .deny
  | .mapping => if c.kind = .mapping then .opens else .deny
  | .any | .raw | .skip => .whole

/-- The memory, with the anchor of a node removed. -/
def unanchored (h : Heap) (n : Nat) : Heap := h.write n { h n with anchor := [] }

/-- The documents of the goyaml engine.  A mapping has its keys and values as elements, and reports their number; the raw
text of a node is the one `yaml.Marshal` writes for it, without its own anchor; `anyOf` are the generic values. -/
def view (lib : RLib) (h : Heap) (multi : Bool) (anyOf : Nat → Option GVal) : View Nat where
  multi := multi
  drains := true
  layer := fun _ _ => none
  verdict := fun e n => verdict lib (h n) e
  text := fun n => (h n).value
  items := fun n => if (h n).kind = .scalar then [] else (h n).content
  size := fun n => (h n).content.length
  anyOf := anyOf
  rawOf := fun n => lib.marshal (unanchored h n) n
  isTimestamp := lib.isTimestamp
  toFloat := lib.toFloat

/-- The texts of the scalars of a tree, in the order of the document. -/
inductive Scalars (h : Heap) : Nat → List (List Char) → Prop
  | scalar {n} : (h n).kind = .scalar → Scalars h n [(h n).value]
  | collection {n} {ls : List (List (List Char))} : (h n).kind = .sequence ∨ (h n).kind = .mapping →
      (h n).content.length = ls.length → (∀ (i : Nat) c l, (h n).content[i]? = some c → ls[i]? = some l → Scalars h c l) →
      Scalars h n ls.flatten

/-- The generic values of the nodes: what generic decoding ends with. -/
def Generic (lib : RLib) (h : Heap) (anyOf : Nat → Option GVal) : Prop :=
  ∀ n, Tree h n → Conv (fun f => GoyamlAnyBuilder.extractAnyValue lib.toGLib h f n) (anyOf n)

end Verif.GoyamlCursor
