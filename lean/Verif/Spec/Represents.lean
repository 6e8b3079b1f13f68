import Verif.Model.Ast
import Verif.Model.GoyamlGraph
import Verif.Spec.CoreSchema
import Verif.Spec.Meaning

/-!
Which trees of both engines are which documents.  Nothing here refers to the decoders.
-/

namespace Verif.GenCode

open Verif.Ast Verif.CoreSchema

/-- A text without quotes, as far as is known. -/
def Unquoted : Quoting → Prop
  | .unknown | .absent => True
  | _ => False

/-- A place for a tag or an anchor holds one, or is vacant. -/
def Slot (p : Node → Prop) (n : Node) : Prop := n = .nil ∨ n = .basic .invalid ∨ p n

/-- Properties of a node, or their absence. -/
def Properties (n : Node) : Prop :=
  Slot (fun n => ∃ t a, n = .properties t a ∧ Slot (fun t => ∃ s, t = .tag s) t ∧ Slot (fun a => ∃ s, a = .anchor s) a) n

mutual
/-- A tree of the yayamls engine is the document. -/
inductive Represents : Doc → Node → Prop
  | null : Represents .null .null
  | nullText {t q} : NullText t → Unquoted q → Represents .null (.text t q)
  | scalar {t q} : ¬ (NullText t ∧ Unquoted q) → Represents (.scalar t) (.text t q)
  | seq {ds ns} : RepresentsItems ds ns → Represents (.seq ds) (.sequence ns)
  | map {es ns} : RepresentsEntries es ns → Represents (.map es) (.mapping ns)
  | content {d p n} : Properties p → Represents d n → Represents d (.content p n)
/-- The elements of a sequence. -/
inductive RepresentsItems : List Doc → List Node → Prop
  | nil : RepresentsItems [] []
  | cons {d ds n ns} : Represents d n → RepresentsItems ds ns → RepresentsItems (d :: ds) (n :: ns)
/-- The entries of a mapping. -/
inductive RepresentsEntries : List (Doc × Doc) → List Node → Prop
  | nil : RepresentsEntries [] []
  | cons {k v es a b ns} : Represents k a → Represents v b → RepresentsEntries es ns →
      RepresentsEntries ((k, v) :: es) (.mappingEntry a b :: ns)
end

/-- A root of the yayamls engine is the document: the tree itself, or a stream of one document. -/
inductive Root : Doc → Node → Prop
  | tree {d n} : Represents d n → Root d n
  | stream {d n} : Represents d n → Root d (.stream [n])

mutual
/-- The node at an address of the memory of the goyaml engine is the document; `nulls` says which scalars are null. -/
inductive Stores (nulls : Goyaml.Cell → Bool) (h : Goyaml.Heap) : Doc → Nat → Prop
  | null {n} : (h n).kind = .scalar → nulls (h n) = true → Stores nulls h .null n
  | scalar {n} : (h n).kind = .scalar → nulls (h n) = false → Stores nulls h (.scalar (h n).value) n
  | seq {ds n} : (h n).kind = .sequence → StoresItems nulls h ds (h n).content → Stores nulls h (.seq ds) n
  | map {es n} : (h n).kind = .mapping → StoresEntries nulls h es (h n).content → Stores nulls h (.map es) n
/-- The elements of a sequence. -/
inductive StoresItems (nulls : Goyaml.Cell → Bool) (h : Goyaml.Heap) : List Doc → List Nat → Prop
  | nil : StoresItems nulls h [] []
  | cons {d ds n ns} : Stores nulls h d n → StoresItems nulls h ds ns → StoresItems nulls h (d :: ds) (n :: ns)
/-- The entries of a mapping: keys and values one after the other. -/
inductive StoresEntries (nulls : Goyaml.Cell → Bool) (h : Goyaml.Heap) : List (Doc × Doc) → List Nat → Prop
  | nil : StoresEntries nulls h [] []
  | cons {k v es a b ns} : Stores nulls h k a → Stores nulls h v b → StoresEntries nulls h es ns →
      StoresEntries nulls h ((k, v) :: es) (a :: b :: ns)
end

end Verif.GenCode
