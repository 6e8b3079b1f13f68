import Verif.Model.GenFields

/-!
Model of the worklist of the code generator: generator/generator.go `AddType`, `addType`, `Generate`, and which types the
functions of generator/decoder.go and generator/encoder.go register.  The text they write is not part of this model; that a
function for a type is written is an event.
-/

namespace Verif.GenTypes

open Verif.GenFields

/-- The two halves of the generator: decoder.go and encoder.go. -/
inductive Dir where
  | dec
  | enc
deriving DecidableEq, Repr

/-- What `reflect` and the engine tell of the types. -/
structure Types (τ : Type) where
  kind : τ → Kind τ
  /-- The type brings its own methods: decoder.go:142-169 resp. encoder.go:162-189: the check for the interface of yamly, the
  check of the engine (with the result `True`) or the check for the text interface succeeds. -/
  leaf : Dir → τ → Bool
  /-- `t.String()` is "time.Time": decoder.go:30-32, encoder.go:30-32. -/
  time : τ → Bool
  /-- The interface type (with methods) is supported: decoder.go:307-322, encoder.go:315-330. -/
  iface : Dir → τ → Bool

variable {τ : Type} [DecidableEq τ]

/-- decoder.go:198, 226 and encoder.go:229, 247: the element type is `byte`. -/
def isByte (ty : Types τ) (t : τ) : Bool :=
  match ty.kind t with
  | .basic b => b
  | _ => false

/-- Concatenation of the registrations of two calls, the second one being made only if the first did not fail. -/
def both (x y : Res (Option (List τ))) : Res (Option (List τ)) :=
  match x with
  | .timeout => .timeout
  | .panic => .panic
  | .ok none => .ok none
  | .ok (some a) =>
    match y with
    | .timeout => .timeout
    | .panic => .panic
    | .ok none => .ok none
    | .ok (some b) => .ok (some (a ++ b))

mutual
/-- decoder.go:134-177 `generateDecoderBody` and encoder.go:154-197 `generateEncoderBody`: the types passed to `addType`, in
order; `none` is an error. -/
def body (ty : Types τ) (d : Dir) (cur : τ) : Nat → τ → Res (Option (List τ))
  | 0, _ => .timeout
  | fuel + 1, t => if t ≠ cur ∧ ty.leaf d t = true then .ok (some []) else bodyWithoutCheck ty d cur fuel t

/-- decoder.go:179-336 `generateDecoderBodyWithoutCheck` and encoder.go:199-344 `generateEncoderBodyWithoutCheck`. -/
def bodyWithoutCheck (ty : Types τ) (d : Dir) (cur : τ) : Nat → τ → Res (Option (List τ))
  | 0, _ => .timeout
  | fuel + 1, t =>
    if ty.time t = true then .ok (some [])
    else
      match ty.kind t with
      | .basic _ => .ok (some [])
      | .slice e => if isByte ty e = true then .ok (some []) else body ty d cur fuel e
      | .array _ e => if isByte ty e = true then .ok (some []) else body ty d cur fuel e
      | .struct _ => .ok (some [t])
      | .pointer e => body ty d cur fuel e
      | .map k e => both (body ty d cur fuel k) (body ty d cur fuel e)
      | .iface methods => if methods = true ∧ ty.iface d t = false then .ok none else .ok (some [])
      | .other _ => .ok none
end

/-- decoder.go:102-106, 119-132 and encoder.go:96-100, 107-132: the bodies for the fields of a struct. -/
def fieldBodies (ty : Types τ) (d : Dir) (cur : τ) (fuel : Nat) : List (Field τ) → Res (Option (List τ))
  | [] => .ok (some [])
  | f :: fs =>
    if (parseTags f.tag).omitField = true then fieldBodies ty d cur fuel fs
    else both (body ty d cur fuel f.type) (fieldBodies ty d cur fuel fs)

/-- decoder.go:52-117 `generateDecoder`, `generateStructDecoder` and encoder.go:54-105 `generateEncoder`,
`generateStructEncoder`.  For types which are not structs the body is generated for the pointer to the type (decoder.go:61;
encoder.go:62-65 if the receiver is a pointer), which leads to the type itself; it is the current type, so that no check is
made. -/
def genFunction (o : Opts) (ty : Types τ) (d : Dir) (fuel : Nat) (t : τ) : Res (Option (List τ)) :=
  match ty.kind t with
  | .struct _ =>
    match getStructFields o ty.kind fuel t with
    | .timeout => .timeout
    | .panic => .panic
    | .ok none => .ok none
    | .ok (some fs) => fieldBodies ty d t fuel fs
  | _ => bodyWithoutCheck ty d t fuel t

/-- What is written. -/
inductive Event (τ : Type) where
  /-- the decoding or encoding function for a type -/
  | function (d : Dir) (t : τ)
  /-- the methods of the target type: decoder.go:34-50, encoder.go:33-52 -/
  | methods (d : Dir) (t : τ)
deriving DecidableEq, Repr

/-- generator.go:23-48: the part of the generator used here.  The top of the stack `pendingTypes` is the head of the list. -/
structure Gen (τ : Type) where
  pending : List τ
  generated : List τ
  out : List (Event τ)

/-- generator.go:108-118 `addType`. -/
def addType (g : Gen τ) (t : τ) : Gen τ :=
  if g.generated.contains t then g
  else if g.pending.contains t then g
  else { g with pending := t :: g.pending }

/-- generator.go:99-106 `AddType` on a new generator; `target` is the type after following a pointer. -/
def start (target : τ) : Gen τ := addType ⟨[], [], []⟩ target

/-- generator.go:124-149: one turn of the loop for the type `t` popped from the stack; `none` is an error. -/
def turn (o : Opts) (ty : Types τ) (target : τ) (fuel : Nat) (g : Gen τ) (t : τ) (rest : List τ) : Res (Option (Gen τ)) :=
  match both (genFunction o ty .dec fuel t) (genFunction o ty .enc fuel t) with
  | .timeout => .timeout
  | .panic => .panic
  | .ok none => .ok none
  | .ok (some found) =>
    let g' := found.foldl addType ⟨rest, t :: g.generated, g.out ++ [.function .dec t, .function .enc t]⟩
    .ok (some (if t = target then { g' with out := g'.out ++ [.methods .dec t, .methods .enc t] } else g'))

/-- generator.go:121-158 `Generate`, up to the header: the events in order, or an error.  Errors of the writers cannot occur:
the output is a buffer in memory. -/
def generate (o : Opts) (ty : Types τ) (target : τ) : Nat → Gen τ → Res (Option (List (Event τ)))
  | 0, _ => .timeout
  | fuel + 1, g =>
    match g.pending with
    | [] => .ok (some g.out)
    | t :: rest =>
      match turn o ty target fuel g t rest with
      | .timeout => .timeout
      | .panic => .panic
      | .ok none => .ok none
      | .ok (some g') => generate o ty target fuel g'

end Verif.GenTypes
