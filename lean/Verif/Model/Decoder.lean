import Verif.Model.Generic

/-!
The interface `Decoder` (decode.go:35-90) which both engines implement, and the declarations which both engines
(engines/yayamls/decode, engines/goyaml/decode) share word for word.
-/

namespace Verif.Decoder

open Verif.Generic

/-- reader.go:34-42 (yayamls), 30-38 (goyaml) `visitingConclusion`. -/
inductive Conclusion where
  | unknown
  | match_
  | consume
  | deny
  | cont
deriving DecidableEq, Repr

/-- `visitingResult` (yayamls reader.go:68-71, goyaml reader.go:64-67); `extract` stands for the action. -/
structure Result where
  conclusion : Conclusion := .unknown
  extract : Bool := false
deriving DecidableEq, Repr

/-- The expecters (expected.go of both engines); `raw` is also `expectNode`; `string` checks for null. -/
inductive Expecter where
  | null
  | integer
  | boolean
  | float
  | string
  | timestamp
  | sequence
  | mapping
  | any
  | raw
  | skip
deriving DecidableEq, Repr

/-- Errors held by a decoder. -/
inductive Err where
  /-- a `denyError`, marked as `ErrDenied` -/
  | deny (e : Expecter)
  /-- `yamly.ErrEndOfStream` -/
  | endOfStream
  /-- a failed conversion of a scalar text -/
  | convert (e : Expecter)
  /-- a failed generic conversion -/
  | any
  /-- a failed serialization -/
  | raw
  /-- an unknown alias -/
  | alias (name : List Char)
  /-- an unexpected conclusion -/
  | unexpected
  /-- an error passed to `AddError` -/
  | custom (id : Nat)
deriving DecidableEq, Repr

/-- `errors.Is(err, yamly.ErrDenied)`. -/
def Err.isDeny : Err → Bool
  | .deny _ => true
  | _ => false

/-- A call of a method of a decoder, or of a method of the `k`-th collection state it returned. -/
inductive Call where
  | tryNull
  | integer (bits : Nat)
  | unsigned (bits : Nat)
  | boolean
  | float (bits : Nat)
  | string
  | timestamp
  | sequence
  | mapping
  | any
  | raw
  | node
  | skip
  | addError (e : Option Nat)
  | error
  | hasItems (k : Nat)
  | size (k : Nat)
deriving DecidableEq, Repr

/-- What a call returns; `none` is a zero value of a type whose values are not modelled.  Floats and times are the texts
they are converted from, nodes are elements of `N`, collection states are the number of elements. -/
inductive Out (N : Type) where
  | unit
  | bool (b : Bool)
  | int (v : Int)
  | uint (v : Nat)
  | float (text : Option (List Char))
  | str (s : List Char)
  | time (text : Option (List Char))
  | coll (size : Nat)
  | any (v : Option GVal)
  | raw (text : Option (List Char))
  | node (n : Option N)
  | size (n : Nat)
  | err (fatal : Option Err) (denied : List Err)

/-- A collection state: the size and the iterator, or the noop state. -/
abbrev Handle := Option (Nat × Nat)

end Verif.Decoder
