import Verif.Model.Schema

/-!
The call interface of the tree builders: `yamly.Inserter` (`encode.go`).
-/

namespace Verif.Inserter

/-- Arguments of the scalar insertions, encode.go:23-42.  `float` and `timestamp` carry the text made of the value by
`schema.FromFloat`/`schema.FromTimestamp` (the formatting of floats and times is not modelled). -/
inductive Scalar where
  | integer (v : Int)
  | unsigned (v : Nat)
  | boolean (b : Bool)
  | float (text : List Char)
  | string (s : List Char)
  | timestamp (text : List Char)
  | null
deriving DecidableEq, Repr

/-- One call of an `Inserter`, encode.go:22-68.  The raw insertions carry the outcome of their argument: the error passed
along or found by the parser of the engine, or the parsed tree of type `ν`. -/
inductive Call (ν : Type) where
  | scalar (s : Scalar)
  | startSequence
  | endSequence
  | startMapping
  | endMapping
  | raw (tree : Option ν)
  | rawText (text : Option (List Char))
deriving Repr

/-- schema/schema.go:62-64,88-90,104-106 `FromBoolean`, `FromInteger`, `FromUnsignedInteger`, and the constant `null`. -/
def Scalar.text : Scalar → List Char
  | .integer v => Schema.fromInteger v
  | .unsigned v => Schema.fromUnsignedInteger v
  | .boolean b => Schema.fromBoolean b
  | .float t => t
  | .string s => s
  | .timestamp t => t
  | .null => "null".toList

/-- encode/writer.go:376-378 (yayamls), encode/builder.go:235-237 (goyaml) `isMultiline`. -/
def isMultiline (s : List Char) : Bool := s.contains '\n'

end Verif.Inserter
