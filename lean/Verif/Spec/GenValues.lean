import Verif.Model.GenCode
import Verif.Spec.CoreSchema
import Verif.Spec.PlainTree

/-!
Zero values, and the values which generated code can write and read back.
-/

namespace Verif.GenCode

/-- The zero value of a type (Go specification, "The zero value"). -/
inductive IsZero (L : Lib) (P : Package) : Ty → Val → Prop
  | string : IsZero L P .string (.str [])
  | bool : IsZero L P .bool (.bool false)
  | int {b} : IsZero L P (.int b) (.int 0)
  | uint {b} : IsZero L P (.uint b) (.uint 0)
  | float {b} : IsZero L P (.float b) (.float (L.toFloat none))
  | text : IsZero L P .text (.text L.zeroText)
  | bytes : IsZero L P .bytes .nil
  | slice {t} : IsZero L P (.slice t) .nil
  | array {n t v} : IsZero L P t v → IsZero L P (.array n t) (.array (List.replicate n v))
  | ptr {t} : IsZero L P (.ptr t) .nil
  | map {t u} : IsZero L P (.map t u) .nil
  | struct {id vs} : vs.length = (P.fields id).length →
      (∀ (i : Nat) f v, (P.fields id)[i]? = some f → vs[i]? = some v → IsZero L P f.ty v) →
      IsZero L P (.struct id) (.struct vs)

/-- The empty values, which the option `omitempty` leaves out: nil, empty strings and collections, false and zero. -/
inductive Blank (L : Lib) : Ty → Val → Prop
  | string : Blank L .string (.str [])
  | bool : Blank L .bool (.bool false)
  | int {b} : Blank L (.int b) (.int 0)
  | uint {b} : Blank L (.uint b) (.uint 0)
  | float {b t} : L.isZero t = true → Blank L (.float b) (.float t)
  | bytesNil : Blank L .bytes .nil
  | bytes : Blank L .bytes (.bytes [])
  | sliceNil {t} : Blank L (.slice t) .nil
  | slice {t} : Blank L (.slice t) (.slice [])
  | ptr {t} : Blank L (.ptr t) .nil
  | mapNil {t u} : Blank L (.map t u) .nil
  | map {t u} : Blank L (.map t u) (.map [])

/-- A field which is left out. -/
def Omitted (L : Lib) (P : Package) (f : Field) (v : Val) : Prop := (P.omitempty || f.omitempty) = true ∧ Blank L f.ty v

/-- What the predicates below say about texts: which strings and which floats (with their size) occur. -/
structure Texts where
  string : List Char → Prop
  float : Nat → List Char → Prop

/-- The values of a type which survive: numbers are in range, no pointer points to a nil, keys of maps differ, no map is
empty where empty maps are read as nil maps, no struct has two fields with the same name, and fields which are omitted are
zero.  `om` says that a surrounding field has the option `omitempty`. -/
inductive Fits (X : Texts) (L : Lib) (P : Package) : Ty → Bool → Val → Prop
  | string {om s} : X.string s → Fits X L P .string om (.str s)
  | bool {om b} : Fits X L P .bool om (.bool b)
  | int {om n v} : CoreSchema.InRange (Strconv.width n) v → Fits X L P (.int n) om (.int v)
  | uint {om n v} : v < 2 ^ Strconv.width n → Fits X L P (.uint n) om (.uint v)
  | float {om n t} : X.float n t → Fits X L P (.float n) om (.float t)
  | bytesNil {om} : Fits X L P .bytes om .nil
  | bytes {om s} : X.string s → Fits X L P .bytes om (.bytes s)
  | sliceNil {t om} : Fits X L P (.slice t) om .nil
  | slice {t om vs} : (∀ v ∈ vs, Fits X L P t om v) → Fits X L P (.slice t) om (.slice vs)
  | array {n t om vs} : vs.length = n → (∀ v ∈ vs, Fits X L P t om v) → Fits X L P (.array n t) om (.array vs)
  | ptrNil {t om} : Fits X L P (.ptr t) om .nil
  | ptr {t om v} : v ≠ .nil → Fits X L P t om v → Fits X L P (.ptr t) om (.ptr v)
  | mapNil {t u om} : Fits X L P (.map t u) om .nil
  | map {t u om es} {kvs : List (Val × Val)} : es = kvs.map (fun p => .entry p.1 p.2) →
      ((P.omitempty || om) = true → kvs ≠ []) → (kvs.map Prod.fst).Nodup →
      (∀ p ∈ kvs, Fits X L P t om p.1) → (∀ p ∈ kvs, Fits X L P u om p.2) → Fits X L P (.map t u) om (.map es)
  | struct {id om vs} : vs.length = (P.fields id).length → ((P.fields id).map Field.name).Nodup →
      (∀ f ∈ P.fields id, X.string f.name) →
      (∀ (i : Nat) f v, (P.fields id)[i]? = some f → vs[i]? = some v → Omitted L P f v → IsZero L P f.ty v) →
      (∀ (i : Nat) f v, (P.fields id)[i]? = some f → vs[i]? = some v → ¬ Omitted L P f v → Fits X L P f.ty f.omitempty v) →
      Fits X L P (.struct id) om (.struct vs)

/-- The strings can be written without escapes: in quotes, or as plain words. -/
def Printable (unquote : Bool) (X : Texts) : Prop :=
  ∀ s, X.string s → if unquote then PlainTree.Phrase s else PlainTree.Verbatim .double s

/-- Types whose values are collections. -/
def Ty.compound : Ty → Bool
  | .slice _ | .array _ _ | .map _ _ | .struct _ => true
  | _ => false

/-- Types whose values are scalars. -/
def Ty.scalar : Ty → Bool
  | .string | .bool | .int _ | .uint _ | .float _ => true
  | _ => false

/-- Values without empty collections, and with scalars as keys: every collection has an element, every struct a field which
is not left out. -/
inductive Full (L : Lib) (P : Package) : Ty → Val → Prop
  | scalar {t v} : t.scalar = true → Full L P t v
  | nil {t} : Full L P t .nil
  | bytes {s} : Full L P .bytes (.bytes s)
  | slice {t vs} : vs ≠ [] → (∀ v ∈ vs, Full L P t v) → Full L P (.slice t) (.slice vs)
  | array {n t vs} : vs ≠ [] → (∀ v ∈ vs, Full L P t v) → Full L P (.array n t) (.array vs)
  | ptr {t v} : Full L P t v → Full L P (.ptr t) (.ptr v)
  | map {t u es} : t.scalar = true → es ≠ [] → (∀ k v, .entry k v ∈ es → Full L P u v) → Full L P (.map t u) (.map es)
  | struct {id vs} : (∃ (i : Nat) (f : Field) (v : Val), (P.fields id)[i]? = some f ∧ vs[i]? = some v ∧ ¬ Omitted L P f v) →
      (∀ (i : Nat) f v, (P.fields id)[i]? = some f → vs[i]? = some v → ¬ Omitted L P f v → Full L P f.ty v) →
      Full L P (.struct id) (.struct vs)

end Verif.GenCode
