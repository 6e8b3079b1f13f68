import Verif.Model.AnyBuilder

/-!
The generic value of a document, by rules over the syntax tree: which value a node has when the anchors met so far are
`env` (latest first), and which anchors are known afterwards.

The flag `mm` ("within the value of a merge key") excludes mappings from the values of a merged mapping: for those the
code does something else, see `Verif.Props.AnyBuilder.nested_mapping_flattened`.
-/

namespace Verif.GenericValue

open Verif.Ast Verif.Generic

/-- Anchors and the nodes they stand for, latest first. -/
abbrev Env := List (List Char × Node)

/-- What an entry of a mapping contributes. -/
inductive Item where
  | pair (key : List Char) (value : GVal)
  | merge (m : GMap)

/-- The properties of a content node: `anchored o p` if `p` holds no anchor (`o = none`) or the anchor `o`. -/
inductive Anchored : Node → Option (List Char) → Prop
  | nil : Anchored .nil none
  | invalid : Anchored (.basic .invalid) none
  | bare {t a : Node} : validNode a = false → Anchored (.properties t a) none
  | anchor {t : Node} {name : List Char} : Anchored (.properties t (.anchor name)) (some name)

/-- The environment in which the content of a content node is evaluated: the anchor stands for the content. -/
def extend (env : Env) (o : Option (List Char)) (c : Node) : Env :=
  match o with
  | none => env
  | some name => (name, c) :: env

/-- The value written for the key `k` in the mapping: the last pair with this key. -/
def written (items : List Item) (k : List Char) : Option GVal :=
  items.reverse.findSome? fun
    | .pair k' v => if k' = k then some v else none
    | .merge _ => none

/-- The value merged for the key `k`: the one of the first merged mapping which has the key. -/
def merged (items : List Item) (k : List Char) : Option GVal :=
  items.findSome? fun
    | .pair _ _ => none
    | .merge m => mget m k

/-- `m` is the map of the items: a written value goes before a merged one. -/
def IsMap (items : List Item) (m : GMap) : Prop :=
  (m.map Prod.fst).Nodup ∧ ∀ k, mget m k = (written items k).or (merged items k)

/-- The items put one after the other into the map; a merge adds the keys which are not there yet.
`Verif.Props.AnyBuilder.build_isMap` shows that this is the map in the sense of `IsMap`; among the equal maps it is the
one whose keys are listed in the order of their first occurrence. -/
def put (m : GMap) : Item → GMap
  | .pair k v => mset m k v
  | .merge src => src.foldl (fun m e => if (mget m e.1).isSome then m else mset m e.1 e.2) m

/-- The map of the items. -/
def build (items : List Item) : GMap := items.foldl put []

mutual
/-- The node in a value position has the value. -/
inductive Means (lib : Lib) : Bool → Env → Node → GVal → Env → Prop
  | null {mm env} : Means lib mm env .null .nil env
  | textNull {mm env t q} : Schema.isNull t = true → q = .unknown ∨ q = .absent → Means lib mm env (.text t q) .nil env
  | text {mm env t q v} : (Schema.isNull t = false ∨ q = .single ∨ q = .double) → scalarValue lib t = some v →
      Means lib mm env (.text t q) v env
  | content {mm env env' p o c v} : Anchored p o → Means lib mm (extend env o c) c v env' →
      Means lib mm env (.content p c) v env'
  | alias {mm env env' name n v} : env.lookup name = some n → Means lib mm env n v env' →
      Means lib mm env (.alias name) v env'
  | sequence {mm env env' es vs} : MeansAll lib mm env es vs env' → Means lib mm env (.sequence es) (.list vs) env'
  | mapping {env env' es items} : MeansEntries lib false env es items env' →
      Means lib false env (.mapping es) (.map (build items)) env'
/-- The node in a key position has the text. -/
inductive MeansKey (lib : Lib) : Bool → Env → Node → List Char → Env → Prop
  | null {mm env} : MeansKey lib mm env .null "null".toList env
  | text {mm env t q} : MeansKey lib mm env (.text t q) t env
  | content {mm env env' p o c s} : Anchored p o → MeansKey lib mm (extend env o c) c s env' →
      MeansKey lib mm env (.content p c) s env'
  | alias {mm env env' name n s} : env.lookup name = some n → MeansKey lib mm env n s env' →
      MeansKey lib mm env (.alias name) s env'
  | sequence {mm env env' es vs} : MeansAll lib mm env es vs env' →
      MeansKey lib mm env (.sequence es) (lib.sprint (.list vs)) env'
  | mapping {env env' es items} : MeansEntries lib false env es items env' →
      MeansKey lib false env (.mapping es) (lib.sprint (.map (build items))) env'
/-- The nodes have the values, in order. -/
inductive MeansAll (lib : Lib) : Bool → Env → List Node → List GVal → Env → Prop
  | nil {mm env} : MeansAll lib mm env [] [] env
  | cons {mm env env' env'' n ns v vs} : Means lib mm env n v env' → MeansAll lib mm env' ns vs env'' →
      MeansAll lib mm env (n :: ns) (v :: vs) env''
/-- The node is the value of a merge key and a mapping (or stands for one). -/
inductive MeansMerge (lib : Lib) : Env → Node → GMap → Env → Prop
  | content {env env' p o c m} : Anchored p o → MeansMerge lib (extend env o c) c m env' →
      MeansMerge lib env (.content p c) m env'
  | alias {env env' name n m} : env.lookup name = some n → MeansMerge lib env n m env' →
      MeansMerge lib env (.alias name) m env'
  | mapping {env env' es items} : MeansEntries lib true env es items env' →
      MeansMerge lib env (.mapping es) (build items) env'
/-- The entries of a mapping contribute the items. -/
inductive MeansEntries (lib : Lib) : Bool → Env → List Node → List Item → Env → Prop
  | nil {mm env} : MeansEntries lib mm env [] [] env
  | pair {mm env env1 env2 env3 k v s val es items} : MeansKey lib mm env k s env1 → s ≠ "<<".toList →
      Means lib mm env1 v val env2 → MeansEntries lib mm env2 es items env3 →
      MeansEntries lib mm env (.mappingEntry k v :: es) (.pair s val :: items) env3
  | merge {mm env env1 env2 env3 k v mv es items} : MeansKey lib mm env k "<<".toList env1 →
      MeansMerge lib env1 v mv env2 → MeansEntries lib mm env2 es items env3 →
      MeansEntries lib mm env (.mappingEntry k v :: es) (.merge mv :: items) env3
  | other {mm env env1 env2 env3 k v val es items} : MeansKey lib mm env k "<<".toList env1 →
      Means lib true env1 v val env2 → MeansEntries lib mm env2 es items env3 →
      MeansEntries lib mm env (.mappingEntry k v :: es) (.pair "<<".toList val :: items) env3
end

/-- No alias occurs in the tree. -/
inductive AliasFree : Node → Prop
  | nil : AliasFree .nil
  | basic {ty : NodeType} : AliasFree (.basic ty)
  | stream {docs : List Node} : AliasFree (.stream docs)
  | properties {t a : Node} : AliasFree t → AliasFree a → AliasFree (.properties t a)
  | tag {t : List Char} : AliasFree (.tag t)
  | anchor {t : List Char} : AliasFree (.anchor t)
  | blockHeader {c : Chomping} {i : Int} : AliasFree (.blockHeader c i)
  | text {t : List Char} {q : Quoting} : AliasFree (.text t q)
  | content {p c : Node} : AliasFree p → AliasFree c → AliasFree (.content p c)
  | indent {i : Int} : AliasFree (.indent i)
  | sequence {es : List Node} : (∀ e ∈ es, AliasFree e) → AliasFree (.sequence es)
  | mapping {es : List Node} : (∀ e ∈ es, AliasFree e) → AliasFree (.mapping es)
  | mappingEntry {k v : Node} : AliasFree k → AliasFree v → AliasFree (.mappingEntry k v)
  | null : AliasFree .null

/-- A document without aliases and merge keys, whose keys are scalars and whose scalars can be converted. -/
inductive Plain (lib : Lib) : Node → Prop
  | null : Plain lib .null
  | text {t : List Char} {q : Quoting} : (scalarValue lib t).isSome = true → Plain lib (.text t q)
  | content {p c : Node} {o : Option (List Char)} : Anchored p o → Plain lib c → Plain lib (.content p c)
  | sequence {es : List Node} : (∀ e ∈ es, Plain lib e) → Plain lib (.sequence es)
  | mapping {es : List (List Char × Quoting × Node)} : (∀ e ∈ es, e.1 ≠ "<<".toList) → (∀ e ∈ es, Plain lib e.2.2) →
      Plain lib (.mapping (es.map fun e => .mappingEntry (.text e.1 e.2.1) e.2.2))

end Verif.GenericValue
