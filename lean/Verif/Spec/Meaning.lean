import Verif.Spec.GenValues

/-!
What a document means for a variable of a Go type.

A document is taken apart into nulls, scalars with their texts, sequences and mappings; how it is written (styles, quotes,
anchors, tags) does not matter here.
-/

namespace Verif.GenCode

open Verif.CoreSchema

/-- A document.  A scalar which means null is `null`. -/
inductive Doc where
  | null
  | scalar (text : List Char)
  | seq (ds : List Doc)
  | map (es : List (Doc × Doc))

/-- The keys which occur, in the order of their first occurrence. -/
inductive FirstKeys : List Val → List Val → Prop
  | nil : FirstKeys [] []
  | new {l r k} : FirstKeys l r → k ∉ l → FirstKeys (l ++ [k]) (r ++ [k])
  | again {l r k} : FirstKeys l r → k ∈ l → FirstKeys (l ++ [k]) r

/-- The last value given to a key. -/
def LastValue (kvs : List (Val × Val)) (k v : Val) : Prop := ∃ a b, kvs = a ++ (k, v) :: b ∧ k ∉ b.map Prod.fst

/-- The entries of a map after assignments: every key has the last value assigned to it. -/
def Assigned (kvs ps : List (Val × Val)) : Prop :=
  FirstKeys (kvs.map Prod.fst) (ps.map Prod.fst) ∧ ∀ k v, (k, v) ∈ ps ↔ LastValue kvs k v

/-- The field a key of a mapping stands for: the first one with this name. -/
def FieldAt (fs : List Field) (key : List Char) (i : Nat) (f : Field) : Prop :=
  fs[i]? = some f ∧ f.name = key ∧ ∀ j g, j < i → fs[j]? = some g → g.name ≠ key

/-- What the rules below depend on: which texts are floats of a size; whether types with `UnmarshalText` are allowed. -/
structure Rules where
  float : List Char → Nat → Bool
  texts : Bool

variable (M : Rules) (L : Lib) (P : Package)

mutual
/-- `Means t om old d v`: a variable of type `t` with the value `old` has the value `v` after reading the document `d`; `om`
says that a surrounding field has the option `omitempty`. -/
inductive Means : Ty → Bool → Val → Doc → Val → Prop
  | string {om old t} : Means .string om old (.scalar t) (.str t)
  | bool {om old t b} : BoolText t b → Means .bool om old (.scalar t) (.bool b)
  | int {om old n t v} : Denotes t v → ¬ LeadingZero t → InRange (Strconv.width n) v →
      Means (.int n) om old (.scalar t) (.int v)
  | uint {om old n t} {v : Nat} : Denotes t v → ¬ LeadingZero t → t.head? ≠ some '+' → t.head? ≠ some '-' →
      v < 2 ^ Strconv.width n → Means (.uint n) om old (.scalar t) (.uint v)
  | float {om old n t} : FloatText t → M.float t n = true → Means (.float n) om old (.scalar t) (.float (L.toFloat (some t)))
  | text {om old t} : M.texts = true → (L.unmarshalText t).2 = none → Means .text om old (.scalar t) (.text (L.unmarshalText t).1)
  | bytesNull {om old} : Means .bytes om old .null .nil
  | bytes {om old t} : Means .bytes om old (.scalar t) (.bytes t)
  | sliceNull {om old t} : Means (.slice t) om old .null .nil
  /-- every element is read into a variable of its own -/
  | slice {om old t zs ds vs} : (∀ z ∈ zs, IsZero L P t z) → MeansItems t om zs ds vs → Means (.slice t) om old (.seq ds) (.slice vs)
  /-- a null leaves an array as it is -/
  | arrayNull {om old n t} : Means (.array n t) om old .null old
  /-- elements without a counterpart in the document stay as they are -/
  | array {om n t os rest ds vs} : os.length + rest.length = n → MeansItems t om os ds vs →
      Means (.array n t) om (.array (os ++ rest)) (.seq ds) (.array (vs ++ rest))
  | ptrNull {om old t} : Means (.ptr t) om old .null .nil
  /-- a pointer which is not nil is followed -/
  | ptrOld {om t old d v} : d ≠ .null → Means t om old d v → Means (.ptr t) om (.ptr old) d (.ptr v)
  | ptrNew {om t z d v} : d ≠ .null → IsZero L P t z → Means t om z d v → Means (.ptr t) om .nil d (.ptr v)
  | mapNull {om old t u} : Means (.map t u) om old .null .nil
  /-- with `omitempty`, an empty mapping is read as the nil map -/
  | mapEmpty {om old t u} : (P.omitempty || om) = true → Means (.map t u) om old (.map []) .nil
  | map {om old t u es kvs ps} : ((P.omitempty || om) = true → es ≠ []) → MeansPairs t u om es kvs → Assigned kvs ps →
      Means (.map t u) om old (.map es) (.map (ps.map fun p => .entry p.1 p.2))
  | struct {om id vs es vs'} : vs.length = (P.fields id).length → MeansFields (P.fields id) vs es vs' →
      Means (.struct id) om (.struct vs) (.map es) (.struct vs')

/-- Elements one by one. -/
inductive MeansItems : Ty → Bool → List Val → List Doc → List Val → Prop
  | nil {t om} : MeansItems t om [] [] []
  | cons {t om o os d ds v vs} : Means t om o d v → MeansItems t om os ds vs → MeansItems t om (o :: os) (d :: ds) (v :: vs)

/-- Keys and values of a map, one by one, as they are in the document. -/
inductive MeansPairs : Ty → Ty → Bool → List (Doc × Doc) → List (Val × Val) → Prop
  | nil {t u om} : MeansPairs t u om [] []
  | cons {t u om zk zv dk dv es k v kvs} : IsZero L P t zk → IsZero L P u zv → Means t om zk dk k → Means u om zv dv v →
      MeansPairs t u om es kvs → MeansPairs t u om ((dk, dv) :: es) ((k, v) :: kvs)

/-- The fields of a struct after the entries of a mapping have been read, one by one. -/
inductive MeansFields : List Field → List Val → List (Doc × Doc) → List Val → Prop
  | nil {fs vs} : MeansFields fs vs [] vs
  /-- a null leaves the field as it is -/
  | null {fs vs key es vs'} : MeansFields fs vs es vs' → MeansFields fs vs ((.scalar key, .null) :: es) vs'
  | field {fs vs key i f old d v es vs'} : FieldAt fs key i f → vs[i]? = some old → d ≠ .null → Means f.ty f.omitempty old d v →
      MeansFields fs (vs.set i v) es vs' → MeansFields fs vs ((.scalar key, d) :: es) vs'
  /-- other keys are skipped, if allowed -/
  | unknown {fs vs key d es vs'} : P.disallowUnknownFields = false → key ∉ fs.map Field.name → d ≠ .null → MeansFields fs vs es vs' →
      MeansFields fs vs ((.scalar key, d) :: es) vs'
end

end Verif.GenCode
