import Verif.Model.Schema
import Verif.Model.Ast

/-!
Values of the Go type `any` produced by `Any()`, and the parts of the standard library which are left open.
-/

namespace Verif.Generic

/-- A value of the type `any` which generic decoding can produce.  Floats and times are kept as the text they are
converted from.  A map is a list of keys and values with distinct keys. -/
inductive GVal where
  | nil
  | bool (b : Bool)
  | uint (n : Nat)
  | int (n : Int)
  | float (text : List Char)
  | time (text : List Char)
  | str (text : List Char)
  | list (vs : List GVal)
  | map (es : List (List Char × GVal))
deriving Repr, Inhabited

/-- A Go `map[string]any`. -/
abbrev GMap := List (List Char × GVal)

/-- `m[k]` (`none`: absent). -/
def mget (m : GMap) (k : List Char) : Option GVal := m.lookup k

/-- `m[k] = v`. -/
def mset : GMap → List Char → GVal → GMap
  | [], k, v => [(k, v)]
  | (k', v') :: m, k, v => if k = k' then (k, v) :: m else (k', v') :: mset m k v

/-- The functions of the Go standard library which are not modelled; the theorems hold whatever they do. -/
structure Lib where
  /-- engines/pkg/schema/schema.go:167-175 `IsTimestamp`; `ToTimestamp` (183-191) tries the same layouts and succeeds
  for the same texts. -/
  isTimestamp : List Char → Bool
  /-- engines/pkg/schema/schema.go:128-141 `ToFloat`: whether the conversion with the given bit size succeeds. -/
  toFloat : List Char → Nat → Bool
  /-- `fmt.Sprint` of a slice or map. -/
  sprint : GVal → List Char

/-- The order in which `extractAnyValueFromText` tries the classes of scalar texts (engines/yayamls/decode/any.go:158-180,
engines/goyaml/decode/any.go:131-152), applied to a text which is not null.  `none` is a failed conversion. -/
def scalarValue (lib : Lib) (t : List Char) : Option GVal :=
  if lib.isTimestamp t then some (.time t)
  else if Schema.isUnsignedInteger t then
    match Schema.toUnsignedInteger t 64 with
    | .ok v => some (.uint v)
    | .error _ => none
  else if Schema.isInteger t then
    match Schema.toInteger t 64 with
    | .ok v => some (.int v)
    | .error _ => none
  else if Schema.isFloat t then if lib.toFloat t 64 then some (.float t) else none
  else if Schema.isBoolean t then (Schema.toBoolean t).map .bool
  else some (.str t)

end Verif.Generic
