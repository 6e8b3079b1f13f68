import Verif.Model.Res
import Verif.Model.GenTypes

/-!
The text written by generator/decoder.go and generator/encoder.go with the engines' parts in engines/yayamls/engine.go and
engines/goyaml/engine.go.

Parameters: what `reflect` and the engine tell of the types, what `extractTypeName` and `generateFunctionName` write for a
type, and the fields of structs (modelled in `Verif.Model.GenTypeName`, `Verif.Model.GenNames`, `Verif.Model.GenFields`).  The registration of types
(`addType`) is modelled in `Verif.Model.GenTypes`.
-/

namespace Verif.GenText

open Verif.GenTypes (Dir)

abbrev Text := List Char

/-- The engines: `engines/yayamls/engine.go`, `engines/goyaml/engine.go`. -/
inductive Engine where
  | yayamls
  | goyaml
deriving DecidableEq, Repr

/-- The kinds with an entry in decoder.go:13-28 and encoder.go:12-27. -/
inductive Basic where
  | string
  | bool
  | int (bits : Nat)
  | uint (bits : Nat)
  | float (bits : Nat)
deriving DecidableEq, Repr

/-- A field for which code is written: decoder.go:119-132, encoder.go:107-132.  `goName` is the name in Go, `name` the one in
the document. -/
structure Field (τ : Type) where
  goName : Text
  name : Text
  type : τ
  omitempty : Bool

/-- `reflect.Kind`, as far as decoder.go:195-334 and encoder.go:217-342 tell them apart.  Of a struct: the fields for which
code is written, and the embedded pointers (decoder.go:82-88). -/
inductive Kind (τ : Type) where
  | basic (b : Basic)
  | slice (elem : τ)
  | array (len : Nat) (elem : τ)
  | struct (fields : List (Field τ)) (embedded : List (Text × τ))
  | pointer (elem : τ)
  | map (key elem : τ)
  | iface (methods : Bool)
  | other

/-- What is known of the types. -/
structure Types (τ : Type) where
  kind : τ → Kind τ
  /-- `t.String() == "time.Time"` -/
  time : τ → Bool
  /-- `t.Kind() == reflect.Uint8 && t.Name() == "uint8"` -/
  byte : τ → Bool
  /-- `reflect.PtrTo(t)` implements `yamly.UnmarshalerYamly` resp. `yamly.MarshalerYamly` -/
  yamly : Dir → τ → Bool
  /-- `reflect.PtrTo(t)` implements the interface of the engine -/
  engine : Dir → τ → Bool
  /-- `reflect.PtrTo(t)` implements `encoding.TextUnmarshaler` resp. `encoding.TextMarshaler` -/
  text : Dir → τ → Bool
  /-- `t` implements `yamly.UnmarshalerYamly` resp. `yamly.MarshalerYamly` -/
  self : Dir → τ → Bool
  /-- generator.go:197-240 `extractTypeName` -/
  name : τ → Text
  /-- decoder.go:342-344 `decoderFunctionName`, encoder.go:350-352 `encoderFunctionName` -/
  func : Dir → τ → Text

/-- The options of the generator (generator.go:31-33). -/
structure Opts where
  omitempty : Bool
  disallowUnknownFields : Bool
  encodePointerReceiver : Bool

/-- Writing: the counter of variables before (generator.go:48) gives the text and the counter after; `none` is an error. -/
abbrev W := Nat → Res (Option (Text × Nat))

/-- Write a text. -/
def say (s : Text) : W := fun n => .ok (some (s, n))

/-- `fmt.Fprintln` of one string. -/
def line (s : Text) : W := say (s ++ ['\n'])

/-- One after the other; an error ends the writing. -/
def W.seq (a b : W) : W := fun n =>
  match a n with
  | .timeout => .timeout
  | .panic => .panic
  | .ok none => .ok none
  | .ok (some (x, n)) =>
    match b n with
    | .timeout => .timeout
    | .panic => .panic
    | .ok none => .ok none
    | .ok (some (y, n)) => .ok (some (x ++ y, n))

/-- A list of writings, one after the other. -/
def all : List W → W
  | [] => say []
  | w :: ws => w.seq (all ws)

/-- An error. -/
def fail : W := fun _ => .ok none

/-- The decimal digits of a number, as `fmt.Sprint` writes it. -/
def number (n : Nat) : Text := Nat.toDigits 10 n

/-- generator.go:294-301 `generateVarName`; `fmt.Sprint` puts no space next to a string. -/
def fresh (suffix : Text) (k : Text → W) : W := fun n => k ("v".toList ++ number (n + 1) ++ suffix) (n + 1)

/-- `strings.Repeat(" ", indent)` -/
def spaces (indent : Nat) : Text := List.replicate indent ' '

/-- The variable which is written or read: the texts passed as `outArg` and `inArg`. -/
inductive Place where
  /-- `out`, `in`: decoder.go:61, encoder.go:68 -/
  | root (x : Text)
  /-- `out.F`, `in.F`: decoder.go:131, encoder.go:120, 126 -/
  | field (x f : Text)
  /-- a generated variable: decoder.go:215, 296, 300; encoder.go:236, 304, 308 -/
  | var (v : Text)
  /-- decoder.go:239, encoder.go:254 -/
  | index (p : Place) (i : Text)
  /-- decoder.go:265, encoder.go:282 -/
  | deref (p : Place)
deriving Repr

/-- The text of a place: the lines cited at `Place`. -/
def Place.text : Place → Text
  | .root x => x
  | .field x f => x ++ '.' :: f
  | .var v => v
  | .index p i => '(' :: (p.text ++ (")[".toList ++ (i ++ "]".toList)))
  | .deref p => '*' :: p.text

/-- A string literal as the generator writes it (decoder.go:130, encoder.go:125): the text between quotes. -/
def quoted (s : Text) : Text := '"' :: (s ++ ['"'])

/-- decoder.go:147, 166; engines/yayamls/engine.go:68, engines/goyaml/engine.go:67: the method of a variable, in decoders. -/
def decMethod (p : Place) (m : Text) : Text := '(' :: (p.text ++ (").".toList ++ m))

/-- encoder.go:167, 186; engines/yayamls/engine.go:82: the method of a variable, in encoders. -/
def encMethod (p : Place) (m : Text) : Text := p.text ++ '.' :: m

section

variable {τ : Type} [DecidableEq τ] (ty : Types τ) (eng : Engine) (o : Opts)

/-! ### the decoder -/

/-- decoder.go:13-28 `basicDecoders`. -/
def decCall : Basic → Text
  | .string => "in.String()".toList
  | .bool => "in.Boolean()".toList
  | .int n => "in.Integer(".toList ++ (number n ++ ")".toList)
  | .uint n => "in.Unsigned(".toList ++ (number n ++ ")".toList)
  | .float n => "in.Float(".toList ++ (number n ++ ")".toList)

/-- What the engines answer: generator/engine.go:51-63 `ImplementationResult`. -/
inductive Answer where
  | no
  | yes
  | conditional
deriving DecidableEq, Repr

/-- engines/yayamls/engine.go:60-72, engines/goyaml/engine.go:57-72 `UnmarshalersImplementationCheck`: the answer, and what is
written. -/
def unmarshalersCheck (t : τ) (p : Place) (indent : Nat) : Answer × W :=
  let ws := spaces indent
  if ty.engine .dec t then
    match eng with
    | .yayamls =>
      (.yes, line (ws ++ ("in.AddError(".toList ++ (decMethod p "UnmarshalYAML".toList ++ "(in.Raw()))".toList))))
    | .goyaml => (.conditional, all [
        line (ws ++ "if extIn, ok := in.(yamly.ExtendedDecoder[*yaml.Node]); ok {".toList),
        line (ws ++ ("  in.AddError(".toList ++ (decMethod p "UnmarshalYAML".toList ++ "(extIn.Node())".toList))),
        -- two operands: a space between them
        line (ws ++ " } else {".toList)])
  else (.no, say [])

/-- engines/yayamls/engine.go:88-96, engines/goyaml/engine.go:88-99 `GenerateUnmarshalEmptyInterfaceAssertions`. -/
def unmarshalAssertions (p : Place) (indent : Nat) : W :=
  let ws := spaces indent
  match eng with
  | .yayamls => all [
      line (ws ++ ("if m, ok := ".toList ++ (p.text ++ ".(yayamls.Unmarshaler); ok {".toList))),
      line (ws ++ "  in.AddError(m.UnmarshalYAML(in.Raw()))".toList),
      line (ws ++ "} else {".toList),
      line (ws ++ ("  ".toList ++ (p.text ++ " = in.Any()".toList))),
      line (ws ++ "}".toList)]
  | .goyaml => all [
      line (ws ++ ("if m, ok := ".toList ++ (p.text ++ ".(yaml.Unmarshaler); ok {".toList))),
      line (ws ++ "  if extIn, ok := in.(yamly.ExtendedDecoder[*yaml.Node]); ok {".toList),
      line (ws ++ "    in.AddError(m.UnmarshalYAML(extIn.Node())".toList),
      line (ws ++ "  } else {".toList),
      line (ws ++ ("    ".toList ++ (p.text ++ " = in.Any()".toList))),
      line (ws ++ "} else {".toList),
      line (ws ++ ("  ".toList ++ (p.text ++ " = in.Any()".toList))),
      line (ws ++ "}".toList)]

mutual
/-- decoder.go:134-177 `generateDecoderBody`. -/
def decBody (cur : τ) : Nat → τ → Place → Bool → Nat → Bool → W
  | 0, _, _, _, _, _ => fun _ => .timeout
  | f + 1, t, p, om, indent, elem =>
    let ws := spaces indent
    if t ≠ cur then
      if ty.yamly .dec t then line (ws ++ (decMethod p "UnmarshalYamly".toList ++ "(in)".toList))
      else
        let check := unmarshalersCheck ty eng t p indent
        let text (indent : Nat) := line (spaces indent ++
          ("in.AddError(".toList ++ (decMethod p "UnmarshalText".toList ++ "([]byte(in.String())))".toList)))
        match check.1 with
        | .yes => check.2
        | .conditional =>
          check.2.seq
            (if ty.text .dec t then text (indent + 2)
             else (decPlain cur f t p om (indent + 2) elem).seq (line (ws ++ "}".toList)))
        | .no =>
          check.2.seq
            (if ty.text .dec t then text indent else (decPlain cur f t p om indent elem).seq (line []))
    else (decPlain cur f t p om indent elem).seq (line [])
termination_by structural f => f

/-- decoder.go:179-336 `generateDecoderBodyWithoutCheck`. -/
def decPlain (cur : τ) : Nat → τ → Place → Bool → Nat → Bool → W
  | 0, _, _, _, _, _ => fun _ => .timeout
  | f + 1, t, p, om, indent, elem =>
    let ws := spaces indent
    if ty.time t then line (ws ++ (p.text ++ " = in.Timestamp()".toList))
    else
      match ty.kind t with
      | .basic b => line (ws ++ (p.text ++ (" = ".toList ++ (ty.name t ++ ("(".toList ++ (decCall b ++ ")".toList))))))
      | .slice e =>
        if ty.byte e then all [
          line (ws ++ "if in.TryNull() {".toList),
          line (ws ++ ("  ".toList ++ (p.text ++ " = nil".toList))),
          line (ws ++ "} else {".toList),
          line (ws ++ ("  ".toList ++ (p.text ++ " = []byte(in.String())".toList))),
          line (ws ++ "}".toList)]
        else
          fresh "SeqState".toList fun state => fresh [] fun v => all [
          line (ws ++ "if in.TryNull() {".toList),
          line (ws ++ ("  ".toList ++ (p.text ++ " = nil".toList))),
          line (ws ++ "} else {".toList),
          line (ws ++ ("  ".toList ++ (state ++ " := in.Sequence()".toList))),
          line (ws ++ ("  ".toList ++ (p.text ++ (" = make(".toList ++ (ty.name t ++ (", 0, ".toList ++ (state ++
            ".Size())".toList))))))),
          line (ws ++ ("  for ".toList ++ (state ++ ".HasUnprocessedItems() {".toList))),
          line (ws ++ ("    var ".toList ++ (v ++ (" ".toList ++ ty.name e)))),
          decBody cur f e (.var v) om (indent + 4) true,
          line (ws ++ ("    ".toList ++ (p.text ++ (" = append(".toList ++ (p.text ++ (", ".toList ++ (v ++
            ")".toList))))))),
          line (ws ++ "  }".toList),
          line (ws ++ "}".toList)]
      | .array len e =>
        if ty.byte e then all [
          line (ws ++ "if !in.TryNull() {".toList),
          line (ws ++ ("  copy(".toList ++ (p.text ++ ", []byte(in.String()))".toList))),
          line (ws ++ "}".toList)]
        else
          fresh "SeqState".toList fun state => fresh [] fun i => all [
          line (ws ++ "if !in.TryNull() {".toList),
          line (ws ++ ("  ".toList ++ (i ++ " := 0".toList))),
          line (ws ++ ("  ".toList ++ (state ++ " := in.Sequence()".toList))),
          line (ws ++ ("  for ".toList ++ (state ++ (".HasUnprocessedItems() && ".toList ++ (i ++ (" < ".toList ++ (number len ++
            "{".toList))))))),
          decBody cur f e (.index p i) om (indent + 4) true,
          line (ws ++ ("    ".toList ++ (i ++ "++".toList))),
          line (ws ++ "  }".toList),
          line (ws ++ "}".toList)]
      | .struct _ _ =>
        match p.text with
        | '*' :: x => line (ws ++ (ty.func .dec t ++ ("(in, ".toList ++ (x ++ ")".toList))))
        | x => line (ws ++ (ty.func .dec t ++ ("(in, &".toList ++ (x ++ ")".toList))))
      | .pointer e => all [
          line (ws ++ "if in.TryNull() {".toList),
          line (ws ++ ("  ".toList ++ (p.text ++ " = nil".toList))),
          line (ws ++ "} else {".toList),
          if elem then all [
            line (ws ++ ("  if ".toList ++ (p.text ++ " == nil {".toList))),
            line (ws ++ ("    ".toList ++ (p.text ++ (" = new(".toList ++ (ty.name e ++ ")".toList))))),
            line (ws ++ "  }".toList)]
          else say [],
          decBody cur f e (.deref p) om (indent + 2) elem,
          line (ws ++ "}".toList)]
      | .map k e =>
        let make := p.text ++ (" = make(map[".toList ++ (ty.name k ++ ("]".toList ++ ty.name e)))
        fresh "MapState".toList fun state => fresh "Key".toList fun kv => fresh "Value".toList fun vv => all [
          line (ws ++ "if in.TryNull() {".toList),
          line (ws ++ ("  ".toList ++ (p.text ++ " = nil".toList))),
          line (ws ++ "} else {".toList),
          line (ws ++ ("  ".toList ++ (state ++ " := in.Mapping()".toList))),
          if o.omitempty || om then all [
            line (ws ++ ("  if ".toList ++ (state ++ ".Size() == 0 {".toList))),
            line ("    ".toList ++ (p.text ++ " = nil".toList)),
            line "  } else {".toList,
            line (ws ++ ("    ".toList ++ (make ++ (", ".toList ++ (state ++ ".Size())".toList))))),
            line (ws ++ "  }".toList)]
          else line (ws ++ ("  ".toList ++ (make ++ (", ".toList ++ (state ++ ".Size())".toList))))),
          line [],
          line (ws ++ ("  for ".toList ++ (state ++ ".HasUnprocessedItems() {".toList))),
          line (ws ++ "    var (".toList),
          line (ws ++ ("      ".toList ++ (kv ++ (" ".toList ++ ty.name k)))),
          line (ws ++ ("      ".toList ++ (vv ++ (" ".toList ++ ty.name e)))),
          line (ws ++ "    )".toList),
          decBody cur f k (.var kv) om (indent + 4) true,
          decBody cur f e (.var vv) om (indent + 4) true,
          line (ws ++ ("    (".toList ++ (p.text ++ (")[".toList ++ (kv ++ ("] = ".toList ++ vv)))))),
          line (ws ++ "  }".toList),
          line (ws ++ "}".toList)]
      | .iface methods =>
        if methods then
          if ty.self .dec t then line (ws ++ ("_ = ".toList ++ (p.text ++ ".UnmarshalYamly(in)".toList)))
          else
            let check := unmarshalersCheck ty eng t p indent
            match check.1 with
            | .no => fail
            | .yes => check.2
            | .conditional => check.2.seq (all [
                line (ws ++ "  in.AddError(yamly.ErrUnmarshalerImplementation)".toList),
                line (ws ++ "}".toList)])
        else all [
          line (ws ++ ("if m, ok := ".toList ++ (p.text ++ ".(yamly.UnmarshalerYamly); ok {".toList))),
          line (ws ++ "  in.AddError(m.UnmarshalYamly(in))".toList),
          line (ws ++ "} else {".toList),
          unmarshalAssertions eng p (indent + 2),
          line (ws ++ "}".toList)]
      | .other => fail
termination_by structural f => f
end

/-- decoder.go:119-132 `generateStructFieldDecoder`. -/
def decField (cur : τ) (f : Nat) (d : Field τ) : W :=
  (line ("    case ".toList ++ (quoted d.name ++ ":".toList))).seq
    (decBody ty eng o cur f d.type (.field "out".toList d.goName) d.omitempty 6 true)

/-- decoder.go:68-117 `generateStructDecoder`. -/
def decStruct (f : Nat) (t : τ) (fs : List (Field τ)) (es : List (Text × τ)) : W :=
  let tname := ty.name t
  all [
    line ("func ".toList ++ (ty.func .dec t ++ ("(in yamly.Decoder, out *".toList ++ (tname ++ ") {".toList)))),
    line "  if in.TryNull() {".toList,
    line ("    var zeroValue ".toList ++ tname),
    line "    *out = zeroValue".toList,
    line "  }".toList,
    line [],
    all (es.map fun e => line ("  out.".toList ++ (e.1 ++ (" = new(".toList ++ (ty.name e.2 ++ ")".toList))))),
    line "  structMappingState := in.Mapping()".toList,
    line "  for structMappingState.HasUnprocessedItems() {".toList,
    line "    key := in.String()".toList,
    line "    if in.TryNull() {".toList,
    line "      continue".toList,
    line "    }".toList,
    line "    switch key {".toList,
    all (fs.map (decField ty eng o t f)),
    line "    default:".toList,
    if o.disallowUnknownFields then line "      in.AddError(&yamly.UnknownFieldError{Field: key})".toList
    else line "      in.Skip()".toList,
    line "    }".toList,
    line "  }".toList,
    line "}".toList]

/-- decoder.go:52-66 `generateDecoder`; `ptr` is `reflect.PtrTo(t)`: the kind is a pointer to `t`, and its name is not
"time.Time". -/
def decoder (f : Nat) (t : τ) : W :=
  match ty.kind t with
  | .struct fs es => decStruct ty eng o f t fs es
  | _ =>
    let out := Place.root "out".toList
    all [
      line ("func ".toList ++ (ty.func .dec t ++ ("(in yamly.Decoder, out *".toList ++ (ty.name t ++ ") {".toList)))),
      -- the pointer case of `decPlain`, with `complexTypeElem` false
      line (spaces 2 ++ "if in.TryNull() {".toList),
      line (spaces 2 ++ ("  ".toList ++ (out.text ++ " = nil".toList))),
      line (spaces 2 ++ "} else {".toList),
      decBody ty eng o t f t (.deref out) false 4 false,
      line (spaces 2 ++ "}".toList),
      line "}".toList]

/-- decoder.go:34-50 `generateUnmarshaler`, with engines/yayamls/engine.go:37-48 and engines/goyaml/engine.go:37-45
`GenerateUnmarshalers`. -/
def unmarshaler (t : τ) : W :=
  let fname := ty.func .dec t
  let tname := ty.name t
  all [
    match eng with
    | .yayamls => all [
        line "// UnmarshalYAML supports yayamls.Unmarshaler interface".toList,
        line ("func (v *".toList ++ (tname ++ ") UnmarshalYAML(data []byte) error {".toList)),
        line "  in, err := decode.NewASTReaderFromBytes(data)".toList,
        line "  if err != nil {".toList,
        line "    return err".toList,
        line "  }".toList,
        line ("  ".toList ++ (fname ++ "(in, v)".toList)),
        line "  return in.Error()".toList,
        line "}".toList]
    | .goyaml => all [
        line "// UnmarshalYAML supports yaml.Unmarshaler interface".toList,
        line ("func (v *".toList ++ (tname ++ ") UnmarshalYAML(value *yaml.Node) error {".toList)),
        line "  in := decode.NewASTReader(value)".toList,
        line ("  ".toList ++ (fname ++ "(in, v)".toList)),
        line "  return in.Error()".toList,
        line "}".toList],
    line [],
    line "// UnmarshalYamly supports yamly.UnmarshalerYamly interface".toList,
    line ("func (v *".toList ++ (tname ++ ") UnmarshalYamly(in yamly.Decoder) {".toList)),
    line ("  ".toList ++ (fname ++ "(in, v)".toList)),
    line "}".toList]

/-! ### the encoder -/

/-- encoder.go:12-27 `basicEncoderFormatStrings`, formatted with a place. -/
def encCall (b : Basic) (x : Text) : Text :=
  match b with
  | .string => "out.InsertString(string(".toList ++ (x ++ "))".toList)
  | .bool => "out.InsertBoolean(bool(".toList ++ (x ++ "))".toList)
  | .int _ => "out.InsertInteger(int64(".toList ++ (x ++ "))".toList)
  | .uint _ => "out.InsertUnsigned(uint64(".toList ++ (x ++ "))".toList)
  | .float _ => "out.InsertFloat(float64(".toList ++ (x ++ "))".toList)

/-- engines/yayamls/engine.go:74-86, engines/goyaml/engine.go:74-86 `MarshalersImplementationCheck`. -/
def marshalersCheck (t : τ) (p : Place) (indent : Nat) : Answer × W :=
  if ty.engine .enc t then
    match eng with
    | .yayamls =>
      (.yes, line (spaces indent ++ ("out.InsertRaw(".toList ++ (encMethod p "MarshalYAML".toList ++ "())".toList))))
    | .goyaml => (.yes, line (spaces indent ++ ("out.InsertRaw(yaml.Marshal(".toList ++ (p.text ++ "))".toList))))
  else (.no, say [])

/-- engines/yayamls/engine.go:98-107, engines/goyaml/engine.go:101-105 `GenerateMarshalEmptyInterfaceAssertions`. -/
def marshalAssertions (p : Place) (indent : Nat) : W :=
  let ws := spaces indent
  match eng with
  | .yayamls => all [
      line (ws ++ ("if m, ok := ".toList ++ (p.text ++ ".(yayamls.Marshaler); ok {".toList))),
      line (ws ++ "  out.InsertRaw(m.MarshalYAML())".toList),
      line (ws ++ "} else {".toList),
      line (ws ++ "  out.InsertRaw(nil, nil)".toList),
      line (ws ++ "}".toList)]
  | .goyaml => line (ws ++ ("out.InsertRaw(yaml.Marshal(".toList ++ (p.text ++ "))".toList)))

mutual
/-- encoder.go:154-197 `generateEncoderBody`.  (No engine gives the conditional answer for encoders.) -/
def encBody (cur : τ) : Nat → τ → Place → Bool → Nat → Bool → W
  | 0, _, _, _, _, _ => fun _ => .timeout
  | f + 1, t, p, om, indent, canBeNull =>
    let ws := spaces indent
    if t ≠ cur then
      if ty.yamly .enc t then line (ws ++ (encMethod p "MarshalYamly".toList ++ "(out)".toList))
      else
        let check := marshalersCheck ty eng t p indent
        match check.1 with
        | .yes => check.2
        | _ =>
          check.2.seq
            (if ty.text .enc t then
              line (ws ++ ("out.InsertRawText(".toList ++ (encMethod p "MarshalText".toList ++ "())".toList)))
             else (encPlain cur f t p om indent canBeNull).seq (line []))
    else (encPlain cur f t p om indent canBeNull).seq (line [])
termination_by structural f => f

/-- encoder.go:199-344 `generateEncoderBodyWithoutCheck`. -/
def encPlain (cur : τ) : Nat → τ → Place → Bool → Nat → Bool → W
  | 0, _, _, _, _, _ => fun _ => .timeout
  | f + 1, t, p, om, indent, canBeNull =>
    let ws := spaces indent
    let opening : W :=
      if canBeNull then all [
        line (ws ++ ("if ".toList ++ (p.text ++ " == nil {".toList))),
        line (ws ++ "  out.InsertNull()".toList),
        line (ws ++ "} else {".toList)]
      else line (ws ++ "{".toList)
    match ty.kind t with
    | .basic b => line (ws ++ encCall b p.text)
    | k =>
      if ty.time t then line (ws ++ ("out.InsertTimestamp(time.Time(".toList ++ (p.text ++ "))".toList)))
      else
        match k with
        | .basic _ => fail
        | .slice e => all [
            opening,
            if ty.byte e then line (ws ++ ("  out.InsertString(string(".toList ++ (p.text ++ "))".toList)))
            else fresh [] fun v => all [
              line (ws ++ "  out.StartSequence()".toList),
              line (ws ++ ("  for _, ".toList ++ (v ++ (" := range ".toList ++ (p.text ++ " {".toList))))),
              encBody cur f e (.var v) om (indent + 2) true,
              line (ws ++ "  }".toList),
              line (ws ++ "  out.EndSequence()".toList)],
            line (ws ++ "}".toList)]
        | .array _ e =>
          if ty.byte e then line (ws ++ ("out.InsertString(string(".toList ++ (p.text ++ "[:]))".toList)))
          else fresh [] fun i => all [
            line (ws ++ "out.StartSequence()".toList),
            line (ws ++ ("for ".toList ++ (i ++ (" := range ".toList ++ (p.text ++ " {".toList))))),
            encBody cur f e (.index p i) om (indent + 2) true,
            line (ws ++ "}".toList),
            line (ws ++ "out.EndSequence()".toList)]
        | .struct _ _ =>
          if o.encodePointerReceiver then
            match p.text with
            | '*' :: x => line (ws ++ (ty.func .enc t ++ ("(out, ".toList ++ (x ++ ")".toList))))
            | x => line (ws ++ (ty.func .enc t ++ ("(out, &".toList ++ (x ++ ")".toList))))
          else line (ws ++ (ty.func .enc t ++ ("(out, ".toList ++ (p.text ++ ")".toList))))
        | .pointer e =>
          if canBeNull then all [opening, encBody cur f e (.deref p) om (indent + 4) true, line (ws ++ "}".toList)]
          else encBody cur f e (.deref p) om (indent + 2) true
        | .map k e =>
          fresh "Key".toList fun kv => fresh "Value".toList fun vv => all [
            opening,
            line (ws ++ "  out.StartMapping()".toList),
            line (ws ++ ("  for ".toList ++ (kv ++ (", ".toList ++ (vv ++ (" := range ".toList ++ (p.text ++
              " {".toList))))))),
            encBody cur f k (.var kv) om (indent + 4) true,
            encBody cur f e (.var vv) om (indent + 4) true,
            line (ws ++ "  }".toList),
            line (ws ++ "  out.EndMapping()".toList),
            line (ws ++ "}".toList)]
        | .iface methods =>
          if methods then
            if ty.self .enc t then line (ws ++ ("_ = ".toList ++ (p.text ++ ".MarshalYamly(out)".toList)))
            else
              let check := marshalersCheck ty eng t p indent
              match check.1 with
              | .no => fail
              | _ => check.2
          else all [
            line (ws ++ ("if m, ok := ".toList ++ (p.text ++ ".(yamly.MarshalerYamly) {".toList))),
            line (ws ++ "  m.MarshalYamly(out)".toList),
            line (ws ++ "} else {".toList),
            marshalAssertions eng p (indent + 2),
            line (ws ++ "}".toList)]
        | .other => fail
termination_by structural f => f
end

/-- encoder.go:134-152 `generateNotEmptyCheck`. -/
def notEmptyCheck (t : τ) (x : Text) : Text :=
  match ty.kind t with
  | .slice _ | .map _ _ => "len(".toList ++ (x ++ ") > 0".toList)
  | .iface _ | .pointer _ => x ++ " != nil".toList
  | .basic .bool => x
  | .basic .string => x ++ " != \"\"".toList
  | .basic _ => x ++ " != 0".toList
  | _ => "true".toList

/-- encoder.go:107-132 `generateStructFieldEncoder`. -/
def encField (cur : τ) (f : Nat) (d : Field τ) : W :=
  let canBeNull := !(o.omitempty || d.omitempty)
  let p := Place.field "in".toList d.goName
  all [
    if canBeNull then line "  {".toList
    else line ("  if ".toList ++ (notEmptyCheck ty d.type p.text ++ " {".toList)),
    line ("    out.InsertString(".toList ++ (quoted d.name ++ ")".toList)),
    encBody ty eng o cur f d.type p d.omitempty 6 canBeNull,
    line "  }".toList]

/-- encoder.go:54-105 `generateEncoder`, `generateStructEncoder`.  With a pointer receiver, the body for a type which is not a
struct is that for `reflect.PtrTo(t)`, encoder.go:273-288. -/
def encoder (f : Nat) (t : τ) : W :=
  let tname := if o.encodePointerReceiver then '*' :: ty.name t else ty.name t
  let header := line ("func ".toList ++ (ty.func .enc t ++ ("(out yamly.Inserter, in ".toList ++ (tname ++ ") {".toList))))
  match ty.kind t with
  | .struct fs _ => all [
      header,
      if o.encodePointerReceiver then all [
        line "  if in == nil {".toList,
        line "    out.InsertNull()".toList,
        line "    return".toList,
        line "  }".toList]
      else say [],
      line "  out.StartMapping()".toList,
      all (fs.map (encField ty eng o t f)),
      line "  out.EndMapping()".toList,
      line "}".toList]
  | _ =>
    let place := Place.root "in".toList
    all [
      header,
      if o.encodePointerReceiver then all [
        line (spaces 2 ++ ("if ".toList ++ (place.text ++ " == nil {".toList))),
        line (spaces 2 ++ "  out.InsertNull()".toList),
        line (spaces 2 ++ "} else {".toList),
        encBody ty eng o t f t (.deref place) false 6 true,
        line (spaces 2 ++ "}".toList)]
      else encPlain ty eng o t f t place false 2 true,
      line "}".toList]

/-- encoder.go:33-52 `generateMarshaler`, with engines/yayamls/engine.go:50-58 and engines/goyaml/engine.go:47-55
`GenerateMarshalers`. -/
def marshaler (t : τ) : W :=
  let fname := ty.func .enc t
  let tname := if o.encodePointerReceiver then '*' :: ty.name t else ty.name t
  all [
    match eng with
    | .yayamls => all [
        line "// MarshalYAML supports yayamls.Marshaler".toList,
        line ("func (v ".toList ++ (tname ++ ") MarshalYAML() ([]byte, error) {".toList)),
        line "  out := yamly.NewEncoder(encode.NewASTBuilder(), encode.NewASTWriter())".toList,
        line ("  ".toList ++ (fname ++ "(out, v)".toList)),
        line "  return out.EncodeToBytes()".toList,
        line "}".toList]
    | .goyaml => all [
        line "// MarshalYAML support yaml.Marshaler interface".toList,
        line ("func (v ".toList ++ (tname ++ ") MarshalYAML() (any, error) {".toList)),
        line "out := encode.NewASTBuilder()".toList,
        line ("  ".toList ++ (fname ++ "(out, v)".toList)),
        line "  return out.Result()".toList,
        line "}".toList],
    line [],
    line "// MarshalYamly supports yamly.MarshalerYamly interface".toList,
    line ("func (v ".toList ++ (tname ++ ") MarshalYamly(out yamly.Inserter) {".toList)),
    line ("  ".toList ++ (fname ++ "(out, v)".toList)),
    line "}".toList]

/-! ### the file -/

/-- generator.go:130-148: what is written for one type of the list; `target` is the type of `AddType`. -/
def forType (f : Nat) (target t : τ) : W :=
  all [decoder ty eng o f t, encoder ty eng o f t,
    if t = target then all [unmarshaler ty eng t, marshaler ty eng o t] else say []]

/-- engines/yayamls/engine.go:33-35, engines/goyaml/engine.go:33-35 `WarningSuppressors`. -/
def suppressors : Engine → List Text
  | .yayamls => ["*encode.ASTWriter".toList, "*decode.ASTReader".toList, "yayamls.Marshaler".toList]
  | .goyaml => ["*encode.ASTWriter".toList, "*decode.ASTReader".toList, "yaml.Marshaler".toList]

/-- generator.go:161-195 `generateHeader`: `imports` are the aliases in order, each with the literal of its path (`%q`). -/
def header (tags pkg : Text) (imports : List (Text × Text)) : W :=
  all [
    if tags ≠ [] then all [line ("// +build  ".toList ++ tags), line []] else say [],
    line "// Code generated by yamlygen. DO NOT EDIT.".toList,
    line [],
    line ("package ".toList ++ pkg),
    line [],
    line "import (".toList,
    all (imports.map fun i => line ("  ".toList ++ (i.1 ++ (" ".toList ++ i.2)))),
    line ")".toList,
    line [],
    line "// suppress unused package warning".toList,
    line "var (".toList,
    line "  _ yamly.MarshalerYamly".toList,
    all ((suppressors eng).map fun x => line (" _ ".toList ++ x)),
    line ")".toList,
    line []]

/-- generator.go:121-158 `Generate`: the header and the text for each type, in the order `ts` in which the types are taken
from the list (modelled in `Verif.Model.GenTypes`).  The header is written last; it does not change the counter. -/
def file (f : Nat) (target : τ) (ts : List τ) (tags pkg : Text) (imports : List (Text × Text)) : W :=
  (header eng tags pkg imports).seq (all (ts.map (forType ty eng o f target)))

end

end Verif.GenText
