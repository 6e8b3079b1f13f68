import Verif.Model.Res

/-!
Model of the parts of the code generator that look at types: generator/tags.go and the field lists of
generator/generator.go.

Types are given by a table: `desc t` is what `reflect` tells of the type `t` (`τ` is the set of types, `reflect.Type` values
are compared with `==`).
-/

namespace Verif.GenFields

/-- generator/tags.go:8-14 `fieldTags`. -/
structure Tags where
  name : List Char
  omitField : Bool
  omitempty : Bool
  inline : Bool
deriving DecidableEq, Repr

/-- `strings.Split(s, ",")`, called at generator/tags.go:19. -/
def splitComma : List Char → List (List Char)
  | [] => [[]]
  | c :: s =>
    if c = ',' then [] :: splitComma s
    else
      match splitComma s with
      | [] => [[c]]
      | w :: ws => (c :: w) :: ws

/-- generator/tags.go:16-37 `parseTags`; the argument is `f.Get("yaml")`. -/
def parseTags (tag : List Char) : Tags :=
  match splitComma tag with
  | [] => ⟨[], false, false, false⟩
  | name :: options =>
    { name := name
      omitField := options.isEmpty && name = ['-']
      omitempty := options.contains "omitempty".toList
      inline := options.contains "inline".toList }

/-- What is used of `reflect.StructField`: generator/generator.go:399-436; generator/decoder.go:82-87, 119-131.
`tag` is the value of the key "yaml" of the tag. -/
structure Field (τ : Type) where
  name : List Char
  anonymous : Bool
  type : τ
  tag : List Char
deriving DecidableEq, Repr

/-- generator/decoder.go:125-128: the name of a field in the document. -/
def Field.yamlName {τ : Type} (f : Field τ) : List Char :=
  if (parseTags f.tag).name = [] then f.name else (parseTags f.tag).name

/-- What is used of `reflect.Kind` and of the parts of a type.
`basic`: the kinds with a basic decoder (decoder.go:13-28), `byte` tells `Kind() == Uint8 && Name() == "uint8"`;
`other inRange`: kinds without a decoder, `inRange` tells that the kind is between `Bool` and `Complex128` (generator.go:416). -/
inductive Kind (τ : Type) where
  | basic (byte : Bool)
  | other (inRange : Bool)
  | slice (elem : τ)
  | array (len : Nat) (elem : τ)
  | pointer (elem : τ)
  | map (key elem : τ)
  | struct (fields : List (Field τ))
  | iface (methods : Bool)
deriving DecidableEq, Repr

/-- Options of the generator that matter here (generator.go:30-33) and `unicode.IsUpper` of the first rune of a name.
Names of fields are never empty (`reflect`), so `upper` is not asked about the empty name. -/
structure Opts where
  inlineEmbedded : Bool
  upper : List Char → Bool

variable {τ : Type}

/-- generator.go:401 and 427: is the field replaced with the fields of its type? -/
def inlined (o : Opts) (f : Field τ) : Bool :=
  (f.anonymous && o.inlineEmbedded && decide ((parseTags f.tag).name = [])) || (parseTags f.tag).inline

/-- generator.go:405-408: a pointer is followed once. -/
def deref (desc : τ → Kind τ) (t : τ) : τ :=
  match desc t with
  | .pointer e => e
  | _ => t

/-- generator.go:440-454 `mergeStructFields`. -/
def merge (first second : List (Field τ)) : List (Field τ) :=
  second ++ first.filter fun f => !(second.any fun g => decide (g.name = f.name))

/-- generator.go:416 "kind is basic". -/
def basicKind : Kind τ → Bool
  | .basic _ => true
  | .other r => r
  | _ => false

/-- generator.go:418: is the inlined field of a basic kind kept? -/
def keepBasic (o : Opts) (f : Field τ) : Bool := f.name.contains '.' || o.upper f.name

/-- generator.go:424-436: the second loop. -/
def ownFields (o : Opts) (fs : List (Field τ)) : List (Field τ) :=
  fs.filter fun f => !(inlined o f) && o.upper f.name

/-- generator.go:398-422: the first loop; `call` is the recursive call.  Result: embedded fields, fields. -/
def firstLoop (o : Opts) (desc : τ → Kind τ) (call : τ → Res (Option (List (Field τ)))) :
    List (Field τ) → List (Field τ) → List (Field τ) → Res (Option (List (Field τ) × List (Field τ)))
  | [], embedded, fields => .ok (some (embedded, fields))
  | f :: fs, embedded, fields =>
    if inlined o f = false then firstLoop o desc call fs embedded fields
    else
      match desc (deref desc f.type) with
      | .struct _ =>
        match call (deref desc f.type) with
        | .timeout => .timeout
        | .panic => .panic
        | .ok none => .ok none
        | .ok (some gs) => firstLoop o desc call fs (merge embedded gs) fields
      | k =>
        if basicKind k && keepBasic o f then firstLoop o desc call fs embedded (fields ++ [f])
        else firstLoop o desc call fs embedded fields

/-- generator.go:388-438 `getStructFields`; `none` is the error "expected struct". -/
def getStructFields (o : Opts) (desc : τ → Kind τ) : Nat → τ → Res (Option (List (Field τ)))
  | 0, _ => .timeout
  | fuel + 1, t =>
    match desc t with
    | .struct fs =>
      match firstLoop o desc (getStructFields o desc fuel) fs [] [] with
      | .timeout => .timeout
      | .panic => .panic
      | .ok none => .ok none
      | .ok (some (embedded, fields)) => .ok (some (merge embedded (fields ++ ownFields o fs)))
    | _ => .ok none

end Verif.GenFields
