import Verif.Model.Decoder
import Verif.Model.Res
import Verif.Model.Inserter

/-!
What the generated code does: the functions written by generator/decoder.go and generator/encoder.go, as calls of the
interfaces `yamly.Decoder` and `yamly.Inserter`.

Not modelled: interface types and byte arrays (the text generated for them is not valid Go), types with an own
`MarshalYamly`/`UnmarshalYamly` or engine-specific methods, embedded pointers (decoder.go:82-88), the option
`encodePointerReceiver` (it changes parameter passing only).  The selection of the fields is modelled in
`Verif.Model.GenFields`.  For pointers to types with `MarshalText` the encoder's text is not valid Go (`Verif.Props.GenText`); here it is
taken to call the method of the value behind the pointer.  Names with quotes, backslashes or line breaks are taken to be
escaped, which they are not (ibid.).
-/

namespace Verif.GenCode

open Verif.Decoder

/-- Types, as the `switch t.Kind()` of generator/decoder.go:195-334 and encoder.go:217-342 sees them.  `int bits`,
`uint bits` and `float bits` stand for the kinds with the given argument in decoder.go:13-28 (0: `int`, `uint`);
`bytes` is `[]byte`; `text` is a type with `MarshalText` and `UnmarshalText` (such as `time.Time`: the entries for it in
decoder.go:30-32 and encoder.go:29-31 are never reached); structs have numbers. -/
inductive Ty where
  | string
  | bool
  | int (bits : Nat)
  | uint (bits : Nat)
  | float (bits : Nat)
  | text
  | bytes
  | slice (elem : Ty)
  | array (len : Nat) (elem : Ty)
  | ptr (elem : Ty)
  | map (key elem : Ty)
  | struct (id : Nat)
deriving DecidableEq, Repr

/-- A field for which code is generated: decoder.go:119-132, encoder.go:107-132.  `name` is the name in the document. -/
structure Field where
  name : List Char
  ty : Ty
  omitempty : Bool
deriving DecidableEq, Repr

/-- A generated package: the fields of the structs and the options of the generator (generator.go:35-43). -/
structure Package where
  fields : Nat → List Field
  omitempty : Bool
  disallowUnknownFields : Bool

/-- Functions which are not modelled.  A float is represented by the text `schema.FromFloat` makes of it, a value of a
type with `MarshalText` by the text this method returns. -/
structure Lib where
  /-- the float `Decoder.Float` returns for a text (`none`: zero) -/
  toFloat : Option (List Char) → List Char
  /-- whether a float equals zero (so does -0, which has another text) -/
  isZero : List Char → Bool
  /-- the value after `UnmarshalText`, and the error -/
  unmarshalText : List Char → List Char × Option Nat
  /-- the zero value of types with `MarshalText` -/
  zeroText : List Char

/-- Values.  `nil` is the nil slice, map or pointer; a map is a list of entries, in the order in which `range` gives
them. -/
inductive Val where
  | str (s : List Char)
  | bool (b : Bool)
  | int (v : Int)
  | uint (v : Nat)
  | float (t : List Char)
  | text (t : List Char)
  | nil
  | bytes (s : List Char)
  | slice (vs : List Val)
  | array (vs : List Val)
  | ptr (v : Val)
  | entry (k v : Val)
  | map (es : List Val)
  | struct (vs : List Val)

/-- encoder.go:134-152 `generateNotEmptyCheck`. -/
def notEmpty (L : Lib) : Ty → Val → Bool
  | .slice _, .slice vs => !vs.isEmpty
  | .bytes, .bytes s => !s.isEmpty
  | .map _ _, .map es => !es.isEmpty
  | .slice _, _ | .bytes, _ | .map _ _, _ => false
  | .ptr _, .nil => false
  | .bool, .bool b => b
  | .string, .str s => !s.isEmpty
  | .int _, .int v => v != 0
  | .uint _, .uint v => v != 0
  | .float _, .float t => !L.isZero t
  | _, _ => true

section Encoder

variable {ν : Type} (L : Lib) (P : Package)

mutual
/-- encoder.go:154-344 `generateEncoderBody`, `generateEncoderBodyWithoutCheck` and, for structs, 75-105
`generateStructEncoder`: the calls the code makes for a value (`none`: the value is not of the type, or the code
dereferences a nil pointer). -/
def enc : Ty → Bool → Val → Option (List (Inserter.Call ν))
  -- 12-27, 208-210
  | .string, _, .str s => some [.scalar (.string s)]
  | .bool, _, .bool b => some [.scalar (.boolean b)]
  | .int _, _, .int v => some [.scalar (.integer v)]
  | .uint _, _, .uint v => some [.scalar (.unsigned v)]
  | .float _, _, .float t => some [.scalar (.float t)]
  -- 184-188
  | .text, _, .text t => some [.rawText (some t)]
  -- 218-243
  | .bytes, canBeNull, .nil => some [.scalar (if canBeNull then .null else .string [])]
  | .bytes, _, .bytes s => some [.scalar (.string s)]
  | .slice _, canBeNull, .nil => some (if canBeNull then [.scalar .null] else [.startSequence, .endSequence])
  | .slice t, _, .slice vs => (encItems t vs).map (fun cs => .startSequence :: (cs ++ [.endSequence]))
  -- 244-260
  | .array n t, _, .array vs =>
    if vs.length = n then (encItems t vs).map (fun cs => .startSequence :: (cs ++ [.endSequence])) else none
  -- 261-272
  | .struct id, _, .struct vs => (encFields (P.fields id) vs).map (fun cs => .startMapping :: (cs ++ [.endMapping]))
  -- 273-288
  | .ptr _, canBeNull, .nil => if canBeNull then some [.scalar .null] else none
  | .ptr t, _, .ptr v => enc t true v
  -- 289-314
  | .map _ _, canBeNull, .nil => some (if canBeNull then [.scalar .null] else [.startMapping, .endMapping])
  | .map t u, _, .map es => (encEntries t u es).map (fun cs => .startMapping :: (cs ++ [.endMapping]))
  | _, _, _ => none

/-- encoder.go:234-240, 252-258: the loop over the elements. -/
def encItems : Ty → List Val → Option (List (Inserter.Call ν))
  | _, [] => some []
  | t, v :: vs =>
    match enc t true v, encItems t vs with
    | some a, some b => some (a ++ b)
    | _, _ => none

/-- encoder.go:302-312: the loop over the entries of a map. -/
def encEntries : Ty → Ty → List Val → Option (List (Inserter.Call ν))
  | _, _, [] => some []
  | t, u, .entry k v :: es =>
    match enc t true k, enc u true v, encEntries t u es with
    | some a, some b, some c => some (a ++ (b ++ c))
    | _, _, _ => none
  | _, _, _ :: _ => none

/-- encoder.go:97-101 with 107-132 `generateStructFieldEncoder`. -/
def encFields : List Field → List Val → Option (List (Inserter.Call ν))
  | [], [] => some []
  | f :: fs, v :: vs =>
    if (P.omitempty || f.omitempty) && !notEmpty L f.ty v then encFields fs vs
    else
      match enc f.ty (!(P.omitempty || f.omitempty)) v, encFields fs vs with
      | some a, some b => some (.scalar (.string f.name) :: (a ++ b))
      | _, _ => none
  | _, _ => none
end

end Encoder

section Decoder

/-- An implementation of `yamly.Decoder` (decode.go:35-90), with states `σ` and fuel. -/
structure Engine (σ N : Type) where
  step : Nat → σ → Call → Res (Out N × σ)

mutual
/-- `==` of Go, for the keys of a map.  Simplified: pointers are compared by what they point to. -/
def same : Val → Val → Bool
  | .str a, .str b => a == b
  | .bool a, .bool b => a == b
  | .int a, .int b => a == b
  | .uint a, .uint b => a == b
  | .float a, .float b => a == b
  | .text a, .text b => a == b
  | .nil, .nil => true
  | .bytes a, .bytes b => a == b
  | .slice a, .slice b => sames a b
  | .array a, .array b => sames a b
  | .ptr a, .ptr b => same a b
  | .entry a b, .entry c d => same a c && same b d
  | .map a, .map b => sames a b
  | .struct a, .struct b => sames a b
  | _, _ => false

/-- `==` of Go, element by element. -/
def sames : List Val → List Val → Bool
  | [], [] => true
  | a :: as, b :: bs => same a b && sames as bs
  | _, _ => false
end

/-- `m[k] = v` on the entries of a map (decoder.go:304). -/
def putEntry (k v : Val) : List Val → List Val
  | [] => [.entry k v]
  | .entry k' v' :: es => if same k' k then .entry k' v :: es else .entry k' v' :: putEntry k v es
  | e :: es => e :: putEntry k v es

/-- The elements of an array. -/
def Val.elems : Val → List Val
  | .array vs => vs
  | _ => []

/-- The fields of a struct. -/
def Val.members : Val → List Val
  | .struct vs => vs
  | _ => []

/-- The pointed-to value (`none`: the nil pointer). -/
def Val.deref : Val → Option Val
  | .ptr v => some v
  | _ => none

/-- The results of calls, as values of the types of decode.go:35-90. -/
def toBool {N : Type} : Out N → Bool
  | .bool b => b
  | _ => false

/-- See `toBool`. -/
def toInt {N : Type} : Out N → Int
  | .int v => v
  | _ => 0

/-- See `toBool`. -/
def toUint {N : Type} : Out N → Nat
  | .uint v => v
  | _ => 0

/-- See `toBool`. -/
def toFloat {N : Type} : Out N → Option (List Char)
  | .float o => o
  | _ => none

/-- See `toBool`. -/
def toStr {N : Type} : Out N → List Char
  | .str s => s
  | _ => []

/-- See `toBool`. -/
def toSize {N : Type} : Out N → Nat
  | .coll n => n
  | _ => 0

/-- The branch of the `switch key` of decoder.go:101-113: the number of the field, and the field. -/
def branch (key : List Char) : List Field → Option (Nat × Field)
  | [] => none
  | f :: fs => if f.name = key then some (0, f) else (branch key fs).map (fun p => (p.1 + 1, p.2))

mutual
/-- The zero value of a type, of the variable declarations in decoder.go:77, 213, 261, 292-293.  (A struct which contains
itself is not a Go type.) -/
def zero (L : Lib) (P : Package) : Nat → Ty → Res Val
  | 0, _ => .timeout
  | _ + 1, .string => .ok (.str [])
  | _ + 1, .bool => .ok (.bool false)
  | _ + 1, .int _ => .ok (.int 0)
  | _ + 1, .uint _ => .ok (.uint 0)
  | _ + 1, .float _ => .ok (.float (L.toFloat none))
  | _ + 1, .text => .ok (.text L.zeroText)
  | _ + 1, .bytes | _ + 1, .slice _ | _ + 1, .ptr _ | _ + 1, .map _ _ => .ok .nil
  | f + 1, .array n t => do
    let v ← zero L P f t
    .ok (.array (List.replicate n v))
  | f + 1, .struct id => do
    let vs ← zeros L P f (P.fields id)
    .ok (.struct vs)

/-- The zero values of fields. -/
def zeros (L : Lib) (P : Package) : Nat → List Field → Res (List Val)
  | 0, _ => .timeout
  | _ + 1, [] => .ok []
  | f + 1, d :: ds => do
    let v ← zero L P f d.ty
    let vs ← zeros L P f ds
    .ok (v :: vs)
end

variable {σ N : Type} (E : Engine σ N) (L : Lib) (P : Package)

mutual
/-- generator/decoder.go:134-177 `generateDecoderBody`, 179-336 `generateDecoderBodyWithoutCheck`, 68-117
`generateStructDecoder`: the code generated for a variable of type `t` with the value `old`; `om` is `tags.omitempty`.
`k` is the number of collection states the decoder has returned: a collection state is its number; `Size()` is the size
the call returned.  (The capacity given to `make` is not modelled.) -/
def dec : Nat → Ty → Bool → Val → σ → Nat → Res (Val × σ × Nat)
  | 0, _, _, _, _, _ => .timeout
  -- 13-28, 190-193
  | f + 1, .string, _, _, s, k => do
    let (o, s) ← E.step f s .string
    .ok (.str (toStr o), s, k)
  | f + 1, .bool, _, _, s, k => do
    let (o, s) ← E.step f s .boolean
    .ok (.bool (toBool o), s, k)
  | f + 1, .int n, _, _, s, k => do
    let (o, s) ← E.step f s (.integer n)
    .ok (.int (toInt o), s, k)
  | f + 1, .uint n, _, _, s, k => do
    let (o, s) ← E.step f s (.unsigned n)
    .ok (.uint (toUint o), s, k)
  | f + 1, .float n, _, _, s, k => do
    let (o, s) ← E.step f s (.float n)
    .ok (.float (L.toFloat (toFloat o)), s, k)
  -- 164-168
  | f + 1, .text, _, _, s, k => do
    let (o, s) ← E.step f s .string
    let (_, s) ← E.step f s (.addError (L.unmarshalText (toStr o)).2)
    .ok (.text (L.unmarshalText (toStr o)).1, s, k)
  -- 198-203
  | f + 1, .bytes, _, _, s, k => do
    let (o, s) ← E.step f s .tryNull
    if toBool o then .ok (.nil, s, k)
    else do
      let (o, s) ← E.step f s .string
      .ok (.bytes (toStr o), s, k)
  -- 204-221
  | f + 1, .slice t, om, _, s, k => do
    let (o, s) ← E.step f s .tryNull
    if toBool o then .ok (.nil, s, k)
    else do
      let (_, s) ← E.step f s .sequence
      let (vs, s, k') ← decItems f t om k [] s (k + 1)
      .ok (.slice vs, s, k')
  -- 230-244
  | f + 1, .array n t, om, old, s, k => do
    let (o, s) ← E.step f s .tryNull
    if toBool o then .ok (old, s, k)
    else do
      let (_, s) ← E.step f s .sequence
      let (vs, s, k') ← decArray f n t om k 0 old.elems s (k + 1)
      .ok (.array vs, s, k')
  -- 246-254 with 76-79, 95-114: there is no return after the null
  | f + 1, .struct id, _, old, s, k => do
    let (o, s) ← E.step f s .tryNull
    let old ← if toBool o then zero L P f (.struct id) else .ok old
    let (_, s) ← E.step f s .mapping
    let (vs, s, k') ← decFields f (P.fields id) k old.members s (k + 1)
    .ok (.struct vs, s, k')
  -- 255-269
  | f + 1, .ptr t, om, old, s, k => do
    let (o, s) ← E.step f s .tryNull
    if toBool o then .ok (.nil, s, k)
    else do
      let target ← match old.deref with
        | some v => .ok v
        | none => zero L P f t
      let (v, s, k') ← dec f t om target s k
      .ok (.ptr v, s, k')
  -- 270-306
  | f + 1, .map t u, om, _, s, k => do
    let (o, s) ← E.step f s .tryNull
    if toBool o then .ok (.nil, s, k)
    else do
      let (o, s) ← E.step f s .mapping
      decEntries f t u om k (if (P.omitempty || om) && toSize o == 0 then .nil else .map []) s (k + 1)
termination_by structural f => f

/-- decoder.go:212-220: the loop of a slice over the collection state `h`, with the elements so far. -/
def decItems : Nat → Ty → Bool → Nat → List Val → σ → Nat → Res (List Val × σ × Nat)
  | 0, _, _, _, _, _, _ => .timeout
  | f + 1, t, om, h, vs, s, k => do
    let (o, s) ← E.step f s (.hasItems h)
    if toBool o then do
      let z ← zero L P f t
      let (v, s, k) ← dec f t om z s k
      decItems f t om h (vs ++ [v]) s k
    else .ok (vs, s, k)
termination_by structural f => f

/-- decoder.go:236-243: the loop of an array of length `n`, at the element with the index `i`. -/
def decArray : Nat → Nat → Ty → Bool → Nat → Nat → List Val → σ → Nat → Res (List Val × σ × Nat)
  | 0, _, _, _, _, _, _, _, _ => .timeout
  | f + 1, n, t, om, h, i, vs, s, k => do
    let (o, s) ← E.step f s (.hasItems h)
    if toBool o && decide (i < n) then do
      let (v, s, k) ← dec f t om (vs.getD i .nil) s k
      decArray f n t om h (i + 1) (vs.set i v) s k
    else .ok (vs, s, k)
termination_by structural f => f

/-- decoder.go:290-305: the loop of a map; an assignment to an entry of the nil map panics. -/
def decEntries : Nat → Ty → Ty → Bool → Nat → Val → σ → Nat → Res (Val × σ × Nat)
  | 0, _, _, _, _, _, _, _ => .timeout
  | f + 1, t, u, om, h, m, s, k => do
    let (o, s) ← E.step f s (.hasItems h)
    if toBool o then do
      let zk ← zero L P f t
      let zv ← zero L P f u
      let (key, s, k) ← dec f t om zk s k
      let (v, s, k) ← dec f u om zv s k
      match m with
      | .map es => decEntries f t u om h (.map (putEntry key v es)) s k
      | _ => .panic
    else .ok (m, s, k)
termination_by structural f => f

/-- decoder.go:96-114: the loop of a struct with the field values `vs`. -/
def decFields : Nat → List Field → Nat → List Val → σ → Nat → Res (List Val × σ × Nat)
  | 0, _, _, _, _, _ => .timeout
  | f + 1, fs, h, vs, s, k => do
    let (o, s) ← E.step f s (.hasItems h)
    if toBool o then do
      let (key, s) ← E.step f s .string
      let (o, s) ← E.step f s .tryNull
      if toBool o then decFields f fs h vs s k
      else
        match branch (toStr key) fs with
        | some (i, d) => do
          let (v, s, k) ← dec f d.ty d.omitempty (vs.getD i .nil) s k
          decFields f fs h (vs.set i v) s k
        | none => do
          let (_, s) ← E.step f s (if P.disallowUnknownFields then .addError (some 0) else .skip)
          decFields f fs h vs s k
    else .ok (vs, s, k)
termination_by structural f => f
end

/-- decoder.go:52-66 `generateDecoder`: the function for a type, called with a pointer to the value `old`.  For the types
which are not structs, the body is generated for a pointer (255-269 with `complexTypeElem = false`); a null then only
changes the parameter. -/
def decTop (f : Nat) (t : Ty) (old : Val) (s : σ) : Res (Val × σ × Nat) :=
  match t with
  | .struct _ => dec E L P f t false old s 0
  | _ => do
    let (o, s) ← E.step f s .tryNull
    if toBool o then .ok (old, s, 0) else dec E L P f t false old s 0

end Decoder

/-- encoder.go:54-73 `generateEncoder`: the function for a type. -/
def encTop {ν : Type} (L : Lib) (P : Package) (t : Ty) (v : Val) : Option (List (Inserter.Call ν)) := enc L P t true v

end Verif.GenCode
