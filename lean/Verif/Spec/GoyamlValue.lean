import Verif.Model.GoyamlAnyBuilder
import Verif.Spec.GenericValue

/-!
The generic value of a node of a graph of yaml.v3 nodes, by rules.  Maps, items and the precedence of written keys are
those of `Verif.Spec.GenericValue`.
-/

namespace Verif.GoyamlValue

open Verif.Generic Verif.Goyaml Verif.GenericValue
open Verif.GoyamlAnyBuilder (GLib isNull)

mutual
/-- The node in a value position has the value; `mm`: within the value of a merge key (mappings are excluded there). -/
inductive Means (lib : GLib) (h : Heap) : Bool → Nat → GVal → Prop
  | null {mm n} : (h n).kind = .scalar → isNull lib (h n) = true → Means lib h mm n .nil
  | text {mm n v} : (h n).kind = .scalar → isNull lib (h n) = false → scalarValue lib.toLib (h n).value = some v →
      Means lib h mm n v
  | document {mm n c cs v} : (h n).kind = .document → (h n).content = c :: cs → Means lib h mm c v → Means lib h mm n v
  | alias {mm n t v} : (h n).kind = .alias → (h n).alias = some t → Means lib h mm t v → Means lib h mm n v
  | sequence {mm n vs} : (h n).kind = .sequence → MeansAll lib h mm (h n).content vs → Means lib h mm n (.list vs)
  | mapping {n items} : (h n).kind = .mapping → MeansPairs lib h false (h n).content items →
      Means lib h false n (.map (build items))
/-- The node in a key position has the text. -/
inductive MeansKey (lib : GLib) (h : Heap) : Bool → Nat → List Char → Prop
  | scalar {mm n} : (h n).kind = .scalar → MeansKey lib h mm n (h n).value
  | alias {mm n t s} : (h n).kind = .alias → (h n).alias = some t → MeansKey lib h mm t s → MeansKey lib h mm n s
  | sequence {mm n vs} : (h n).kind = .sequence → MeansAll lib h mm (h n).content vs →
      MeansKey lib h mm n (lib.sprint (.list vs))
  | mapping {n items} : (h n).kind = .mapping → MeansPairs lib h false (h n).content items →
      MeansKey lib h false n (lib.sprint (.map (build items)))
/-- The nodes have the values, in order. -/
inductive MeansAll (lib : GLib) (h : Heap) : Bool → List Nat → List GVal → Prop
  | nil {mm} : MeansAll lib h mm [] []
  | cons {mm n ns v vs} : Means lib h mm n v → MeansAll lib h mm ns vs → MeansAll lib h mm (n :: ns) (v :: vs)
/-- The node is the value of a merge key and a mapping (or stands for one). -/
inductive MeansMerge (lib : GLib) (h : Heap) : Nat → GMap → Prop
  | alias {n t m} : (h n).kind = .alias → (h n).alias = some t → MeansMerge lib h t m → MeansMerge lib h n m
  | mapping {n items} : (h n).kind = .mapping → MeansPairs lib h true (h n).content items →
      MeansMerge lib h n (build items)
/-- The keys and values of a mapping contribute the items; the value of a last key may be missing and is null then. -/
inductive MeansPairs (lib : GLib) (h : Heap) : Bool → List Nat → List Item → Prop
  | nil {mm} : MeansPairs lib h mm [] []
  | last {mm k s} : MeansKey lib h mm k s → MeansPairs lib h mm [k] [.pair s .nil]
  | pair {mm k v s val ns items} : MeansKey lib h mm k s → s ≠ "<<".toList → Means lib h mm v val →
      MeansPairs lib h mm ns items → MeansPairs lib h mm (k :: v :: ns) (.pair s val :: items)
  | merge {mm k v mv ns items} : MeansKey lib h mm k "<<".toList → MeansMerge lib h v mv →
      MeansPairs lib h mm ns items → MeansPairs lib h mm (k :: v :: ns) (.merge mv :: items)
  | other {mm k v val ns items} : MeansKey lib h mm k "<<".toList → Means lib h true v val →
      MeansPairs lib h mm ns items → MeansPairs lib h mm (k :: v :: ns) (.pair "<<".toList val :: items)
end

/-- A node whose scalars can be converted, whose keys are scalars and no merge keys; aliases are allowed as long as they
lead to the end. -/
inductive Plain (lib : GLib) (h : Heap) : Nat → Prop
  | scalar {n} : (h n).kind = .scalar → (scalarValue lib.toLib (h n).value).isSome = true → Plain lib h n
  | document {n c cs} : (h n).kind = .document → (h n).content = c :: cs → Plain lib h c → Plain lib h n
  | alias {n t} : (h n).kind = .alias → (h n).alias = some t → Plain lib h t → Plain lib h n
  | sequence {n} : (h n).kind = .sequence → (∀ c ∈ (h n).content, Plain lib h c) → Plain lib h n
  | mapping {n} {ps : List (Nat × Nat)} : (h n).kind = .mapping → (h n).content = ps.flatMap (fun p => [p.1, p.2]) →
      (∀ p ∈ ps, (h p.1).kind = .scalar ∧ (h p.1).value ≠ "<<".toList) → (∀ p ∈ ps, Plain lib h p.2) → Plain lib h n

/-- An acyclic graph: the numbers decrease along content and aliases, and documents are not empty. -/
structure Acyclic (h : Heap) (rank : Nat → Nat) : Prop where
  child : ∀ p c, c ∈ (h p).content → rank c < rank p
  alias : ∀ a t, (h a).kind = .alias → (h a).alias = some t → rank t < rank a
  document : ∀ d, (h d).kind = .document → (h d).content ≠ []

end Verif.GoyamlValue
