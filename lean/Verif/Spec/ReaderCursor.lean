import Verif.Model.Reader
import Verif.Spec.DecoderCursor

/-!
The documents of the yayamls engine as documents of a cursor.
-/

namespace Verif.ReaderCursor

open Verif.Ast Verif.Generic Verif.Decoder Verif.DecoderCursor

/-- Node properties and their parts. -/
inductive Attr : Node → Prop
  | tag {t} : Attr (.tag t)
  | anchor {t} : Attr (.anchor t)
  | properties {t a} : (validNode t = true → ∃ s, t = .tag s) → (validNode a = true → ∃ s, a = .anchor s) →
      Attr (.properties t a)

/-- A well-formed tree without aliases; null nodes only if `nulls`. -/
inductive Tree (nulls : Bool) : Node → Prop
  | text {t q} : Tree nulls (.text t q)
  | null : nulls = true → Tree nulls .null
  | sequence {es} : (∀ e ∈ es, Tree nulls e) → Tree nulls (.sequence es)
  | mapping {es} : (∀ e ∈ es, Tree nulls e) → Tree nulls (.mapping es)
  | entry {k v} : Tree nulls k → Tree nulls v → Tree nulls (.mappingEntry k v)
  | content {p c} : (validNode p = true → ∃ t a, p = .properties t a ∧ Attr p) → Tree nulls c → Tree nulls (.content p c)
  | stream {ds} : (∀ d ∈ ds, Tree nulls d) → Tree nulls (.stream ds)

/-- A call which takes whatever comes as one value, also an entry of a mapping or all documents. -/
def takesAll (e : Expecter) : Bool := e = .raw || e = .skip

/-- What is not a value itself, but leads to the values below it. -/
def layer (e : Expecter) : Node → Option (List Node)
  | .content p c => some ([p, c].filter validNode)
  | .properties t a => some ([a, t].filter validNode)
  | .tag _ | .anchor _ => some []
  | .mappingEntry k v => if takesAll e then none else some [k, v]
  | .stream ds => if takesAll e then none else some ds
  | _ => none

/-- A text which is null: unquoted, and one of the null texts. -/
def nullText (t : List Char) (q : Quoting) : Bool := Schema.isNull t && (q == .unknown || q == .absent)

/-- A call which reads a scalar with a text in the class. -/
def textIf (p : Bool) : Verdict := if p = true then .whole else .deny

/-- What the calls accept. -/
def verdict (lib : Lib) : Expecter → Node → Verdict
  | .null, .text t q => textIf (nullText t q)
  | .integer, .text t _ => textIf (Schema.isInteger t)
  | .boolean, .text t _ => textIf (Schema.isBoolean t)
  | .float, .text t _ => textIf (Schema.isFloat t)
  | .string, .text t q => textIf (!nullText t q)
  | .timestamp, .text t _ => textIf (lib.isTimestamp t)
  | .null, .null => .whole
  | .sequence, .sequence _ => .opens
  | .mapping, .mapping _ => .opens
  | .any, _ | .raw, _ | .skip, _ => .whole
  | _, _ => .deny

/-- The elements of a collection; a mapping has entries as elements. -/
def itemsOf : Node → List Node
  | .sequence es | .mapping es => es
  | _ => []

/-- The text of a scalar. -/
def textOf : Node → List Char
  | .text t _ => t
  | _ => []

/-- The text of a node, as the writer of the engine writes it. -/
def rawOf (n : Node) : Option (List Char) :=
  match (Writer.writeBytes Writer.newWriter n).1 with
  | .text s => some s
  | _ => none

/-- The documents of the yayamls engine. -/
def view (lib : Lib) (multi : Bool) (anyOf : Node → Option GVal) : View Node where
  multi := multi
  drains := false
  layer := layer
  verdict := verdict lib
  text := textOf
  items := itemsOf
  size := fun n => (itemsOf n).length
  anyOf := anyOf
  rawOf := rawOf
  isTimestamp := lib.isTimestamp
  toFloat := lib.toFloat

/-- An entry of a mapping. -/
def isEntry : Node → Bool
  | .mappingEntry _ _ => true
  | _ => false

/-- The texts of the scalars of a tree without nulls, in the order of the document. -/
inductive Scalars : Node → List (List Char) → Prop
  | text {t q} : nullText t q = false → Scalars (.text t q) [t]
  | sequence {es} {ls : List (List (List Char))} : es.length = ls.length → (∀ e ∈ es, isEntry e = false) →
      (∀ (i : Nat) e l, es[i]? = some e → ls[i]? = some l → Scalars e l) → Scalars (.sequence es) ls.flatten
  | mapping {es} {ls : List (List (List Char))} : es.length = ls.length → (∀ e ∈ es, isEntry e = true) →
      (∀ (i : Nat) e l, es[i]? = some e → ls[i]? = some l → Scalars e l) → Scalars (.mapping es) ls.flatten
  | entry {k v l l'} : isEntry k = false → isEntry v = false → Scalars k l → Scalars v l' →
      Scalars (.mappingEntry k v) (l ++ l')
  | content {p c l} : (validNode p = true → ∃ t a, p = .properties t a ∧ Attr p) → isEntry c = false → Scalars c l →
      Scalars (.content p c) l

/-- The generic values of the nodes: what generic decoding ends with, whatever anchors have been met before. -/
def Generic (lib : Lib) (anyOf : Node → Option GVal) : Prop :=
  ∀ n, Tree true n → ∀ a, ∃ a', Conv (fun f => AnyBuilder.extractAnyValue lib f n a) (anyOf n, a')

end Verif.ReaderCursor
