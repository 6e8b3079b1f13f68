import Verif.Spec.GoText

/-!
Types of Go and the texts which denote them in a file: the Go specification, "Types", "Struct types", "Declarations and
scope", "Qualified identifiers", "String literals".  Left out: types of functions and channels, interfaces with methods,
instances of generic types, comments and line breaks within a type; names have ASCII letters only.
-/

namespace Verif.GoType

open Verif.GoText (Ident)

abbrev Text := List Char

mutual

/-- The types.  Equality is the identity of types of the specification: of structs, the names (a name which is not exported
belongs to its package), the types, the tags and the embedding of the fields count. -/
inductive Ty where
  /-- a type with a name; the predeclared types have the empty package -/
  | named (pkg name : Text)
  | pointer (elem : Ty)
  | slice (elem : Ty)
  | array (len : Nat) (elem : Ty)
  | map (key elem : Ty)
  | struct (fields : Fields)
  /-- `interface{}` -/
  | iface
  /-- any other type, with the text of `reflect.Type.String` -/
  | other (text : Text)

/-- The fields of a struct: name, package of the name (empty if it is exported), embedded or not, type and tag. -/
inductive Fields where
  | nil
  | cons (name pkg : Text) (embedded : Bool) (type : Ty) (tag : Text) (rest : Fields)

end

/-- The keywords. -/
def keywords : List Text :=
  ["break".toList, "default".toList, "func".toList, "interface".toList, "select".toList, "case".toList, "defer".toList,
    "go".toList, "map".toList, "struct".toList, "chan".toList, "else".toList, "goto".toList, "package".toList,
    "switch".toList, "const".toList, "fallthrough".toList, "if".toList, "range".toList, "type".toList, "continue".toList,
    "for".toList, "import".toList, "return".toList, "var".toList]

/-- The predeclared types which are no other names for types. -/
def predeclared : List Text :=
  ["bool".toList, "complex64".toList, "complex128".toList, "error".toList, "float32".toList, "float64".toList, "int".toList,
    "int8".toList, "int16".toList, "int32".toList, "int64".toList, "string".toList, "uint".toList, "uint8".toList,
    "uint16".toList, "uint32".toList, "uint64".toList, "uintptr".toList]

/-- A name: an identifier which is not a keyword. -/
def Name (x : Text) : Prop := Ident x ∧ x ∉ keywords

/-- An exported name begins with an upper case letter. -/
def exported (x : Text) : Bool :=
  match x with
  | [] => false
  | c :: _ => c.isUpper

/-- What is known at the place of a type: the own package, the packages of the import clauses by their names, the names
declared in the own package, and those declared in the function around. -/
structure Env where
  own : Text
  imports : Text → Option Text
  declared : Text → Prop
  hidden : Text → Prop

/-- The number of decimal digits. -/
def decimal (ds : Text) : Nat := ds.foldl (fun n c => 10 * n + (c.toNat - 48)) 0

/-- A decimal number as a literal: no zero in front (this would be an octal number). -/
structure Decimal (ds : Text) (n : Nat) : Prop where
  digits : ds ≠ [] ∧ ∀ c ∈ ds, c.isDigit = true
  front : ds = ['0'] ∨ ds.head? ≠ some '0'
  value : decimal ds = n

/-- The value of a hexadecimal digit. -/
def hexDigit (c : Char) : Option Nat :=
  if '0' ≤ c ∧ c ≤ '9' then some (c.toNat - 48)
  else if 'a' ≤ c ∧ c ≤ 'f' then some (c.toNat - 87)
  else if 'A' ≤ c ∧ c ≤ 'F' then some (c.toNat - 55)
  else none

/-- The number of hexadecimal digits. -/
inductive Hex : Text → Nat → Prop
  | nil : Hex [] 0
  | snoc {h n c d} : Hex h n → hexDigit c = some d → Hex (h ++ [c]) (16 * n + d)

/-- The letters behind a backslash which stand for one character. -/
def escapes : List (Char × Char) :=
  [('a', '\x07'), ('b', '\x08'), ('f', '\x0c'), ('n', '\n'), ('r', '\r'), ('t', '\t'), ('v', '\x0b'), ('\\', '\\'), ('"', '"')]

/-- The characters between quotes and the text they denote. -/
inductive Interpreted : Text → Text → Prop
  | nil : Interpreted [] []
  | char {c s x} : c ≠ '"' → c ≠ '\\' → c ≠ '\n' → Interpreted s x → Interpreted (c :: s) (c :: x)
  | escape {e c s x} : (e, c) ∈ escapes → Interpreted s x → Interpreted ('\\' :: e :: s) (c :: x)
  | byte {h s x} {c : Char} : h.length = 2 → Hex h c.toNat → c.toNat < 128 → Interpreted s x →
      Interpreted ('\\' :: 'x' :: (h ++ s)) (c :: x)
  | little {h s x} {c : Char} : h.length = 4 → Hex h c.toNat → Interpreted s x →
      Interpreted ('\\' :: 'u' :: (h ++ s)) (c :: x)
  | big {h s x} {c : Char} : h.length = 8 → Hex h c.toNat → Interpreted s x →
      Interpreted ('\\' :: 'U' :: (h ++ s)) (c :: x)

/-- String literals.  Between back quotes the characters stand for themselves, but carriage returns are dropped. -/
inductive Str : Text → Text → Prop
  | raw {s} : '`' ∉ s → Str ('`' :: (s ++ ['`'])) (s.filter (· ≠ '\r'))
  | interpreted {s x} : Interpreted s x → Str ('"' :: (s ++ ['"'])) x

/-- White space within a line. -/
def Gap (g : Text) : Prop := ∀ c ∈ g, c = ' '

/-- What may follow the type of a field: nothing, or a literal, the tag.  (The empty tag is none.) -/
inductive TagText : Text → Text → Prop
  | none : TagText [] []
  | some {g x tag} : Gap g → Str x tag → TagText (g ++ x) tag

/-- The name of an embedded field is that of its type, without package, for a type with a name or a pointer to one. -/
def embeddedName : Ty → Option Text
  | .named _ x => some x
  | .pointer (.named _ x) => some x
  | _ => none

/-- The package of a field name. -/
def fieldPkg (own x : Text) : Text := if exported x then [] else own

mutual

/-- The types denoted by texts. -/
inductive TypeText (e : Env) : Text → Ty → Prop
  | predeclared {x} : x ∈ predeclared → ¬ e.hidden x → e.imports x = none → ¬ e.declared x → TypeText e x (.named [] x)
  | own {x} : Name x → ¬ e.hidden x → e.imports x = none → e.declared x → TypeText e x (.named e.own x)
  | imported {a p x} : Name a → ¬ e.hidden a → e.imports a = some p → Name x → exported x = true →
      TypeText e (a ++ '.' :: x) (.named p x)
  | pointer {x t} : TypeText e x t → TypeText e ('*' :: x) (.pointer t)
  | slice {x t} : TypeText e x t → TypeText e ('[' :: ']' :: x) (.slice t)
  | array {ds n x t} : Decimal ds n → TypeText e x t → TypeText e ('[' :: (ds ++ ']' :: x)) (.array n t)
  | map {x k y t} : TypeText e x k → TypeText e y t → TypeText e ("map[".toList ++ (x ++ ']' :: y)) (.map k t)
  | struct {g x fs} : Gap g → FieldsText e x fs → TypeText e ("struct".toList ++ (g ++ '{' :: (x ++ ['}']))) (.struct fs)
  | iface {g g'} : Gap g → Gap g' → TypeText e ("interface".toList ++ (g ++ '{' :: (g' ++ ['}']))) .iface

/-- The fields between the braces of a struct. -/
inductive FieldsText (e : Env) : Text → Fields → Prop
  | nil {g} : Gap g → FieldsText e g .nil
  | last {x n p b t tag} : FieldText e x n p b t tag → FieldsText e x (.cons n p b t tag .nil)
  | cons {x n p b t tag y fs} : FieldText e x n p b t tag → FieldsText e y fs →
      FieldsText e (x ++ ';' :: y) (.cons n p b t tag fs)

/-- One field, with white space around. -/
inductive FieldText (e : Env) : Text → Text → Text → Bool → Ty → Text → Prop
  | named {g n g' x t w tag g''} : Gap g → Name n → Gap g' → g' ≠ [] → TypeText e x t → TagText w tag → Gap g'' →
      FieldText e (g ++ (n ++ (g' ++ (x ++ (w ++ g''))))) n (fieldPkg e.own n) false t tag
  | embedded {g x n t w tag g''} : Gap g → TypeText e x t → embeddedName t = some n → TagText w tag → Gap g'' →
      FieldText e (g ++ (x ++ (w ++ g''))) n (fieldPkg e.own n) true t tag

end

end Verif.GoType
