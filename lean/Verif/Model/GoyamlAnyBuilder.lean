import Verif.Model.Res
import Verif.Model.Generic
import Verif.Model.GoyamlGraph

/-!
Model of `engines/goyaml/decode/any.go`: generic decoding in the goyaml engine.

Simplification: as in `Verif.Model.AnyBuilder`, a failed conversion leaves `value` alone.
-/

namespace Verif.GoyamlAnyBuilder

open Verif.Generic Verif.Goyaml

/-- The functions which are not modelled: those of the standard library, and `ShortTag` of yaml.v3. -/
structure GLib extends Lib where
  /-- `n.ShortTag() == "!!null"` for a scalar (engines/goyaml/schema/schema.go:14-19). -/
  nullTag : Cell → Bool

/-- engines/goyaml/schema/schema.go:14-19 `IsNull`. -/
def isNull (lib : GLib) (c : Cell) : Bool := c.kind == .scalar && lib.nullTag c

/-- any.go:11-21 `anyBuilder`; of the errors only their number matters. -/
structure St where
  value : GVal := .nil
  extractString : Bool := false
  stringValue : List Char := []
  extractMergeMap : Bool := false
  mergeMap : Option GMap := none
  errors : Nat := 0

/-- any.go:168-170 `hasErrors`. -/
def St.hasErrors (a : St) : Bool := a.errors != 0

/-- any.go:110-116 `mergeMaps`. -/
def mergeMaps (dst src : GMap) : GMap :=
  src.foldl (fun m e => if (mget m e.1).isSome then m else mset m e.1 e.2) dst

/-- any.go:137-162 `visitScalarNode`. -/
def visitScalar (lib : GLib) (c : Cell) (a : St) : St :=
  if a.extractString then { a with stringValue := c.value }
  else if isNull lib c then { a with value := .nil }
  else
    match scalarValue lib.toLib c.value with
    | some v => { a with value := v }
    | none => { a with errors := a.errors + 1 }

/-- any.go:56-61: the loop of `visitSequenceNode`; `visit` is `visitNode`. -/
def visitItems (visit : Nat → St → Res St) : List Nat → St → List GVal → Res (St × List GVal)
  | [], a, s => .ok (a, s)
  | n :: ns, a, s => do
    let a ← visit n a
    visitItems visit ns a (if a.hasErrors then s else s ++ [a.value])

/-- any.go:50-70 `visitSequenceNode`. -/
def visitSequence (lib : GLib) (visit : Nat → St → Res St) (es : List Nat) (a : St) : Res St := do
  let saved := a.extractString
  let (a, s) ← visitItems visit es { a with extractString := false } []
  let a := { a with extractString := saved }
  if a.extractString then .ok { a with stringValue := lib.sprint (.list s) } else .ok { a with value := .list s }

/-- any.go:118-135 `processMappingPair`; without a value node (any.go:78-83) a new null node is visited, which sets the
value to nil. -/
def processPair (visit : Nat → St → Res St) (k : Nat) (v : Option Nat) (a : St) : Res St := do
  let savedExtractString := a.extractString
  let savedExtractMergeMap := a.extractMergeMap
  let a ← visit k { a with extractString := true }
  let a := if a.stringValue = Schema.mergeKey then { a with extractMergeMap := true } else a
  let key := a.stringValue
  let a : St := { a with extractString := false }
  let a ← match v with
    | some v => visit v a
    | none => .ok { a with value := .nil }
  .ok { a with stringValue := key, extractString := savedExtractString, extractMergeMap := savedExtractMergeMap }

/-- any.go:89-96: what a pair contributes to the map. -/
def putPair (a : St) (m : GMap) : St × GMap :=
  if a.hasErrors then (a, m)
  else
    match a.mergeMap with
    | none => (a, mset m a.stringValue a.value)
    | some mm => ({ a with mergeMap := none }, mergeMaps m mm)

/-- any.go:75-98: the loop of `visitMappingNode`. -/
def visitPairs (visit : Nat → St → Res St) : List Nat → St → GMap → Res (St × GMap)
  | [], a, m => .ok (a, m)
  | [k], a, m => do
    let a ← processPair visit k none a
    .ok (putPair a m)
  | k :: v :: ns, a, m => do
    let a ← processPair visit k (some v) a
    visitPairs visit ns (putPair a m).1 (putPair a m).2

/-- any.go:72-108 `visitMappingNode`. -/
def visitMapping (lib : GLib) (visit : Nat → St → Res St) (es : List Nat) (a : St) : Res St := do
  let (a, m) ← visitPairs visit es a []
  if a.extractMergeMap then .ok { a with mergeMap := some m }
  else if a.extractString then .ok { a with stringValue := lib.sprint (.map m) }
  else .ok { a with value := .map m }

/-- any.go:31-48 `visitNode` (aliases with a nil target are visited without effect). -/
def visitNode (lib : GLib) (h : Heap) : Nat → Nat → St → Res St
  | 0, _, _ => .timeout
  | f + 1, n, a =>
    match (h n).kind with
    | .document =>
      match (h n).content with
      | [] => .panic
      | c :: _ => visitNode lib h f c a
    | .sequence => visitSequence lib (visitNode lib h f) (h n).content a
    | .mapping => visitMapping lib (visitNode lib h f) (h n).content a
    | .scalar => .ok (visitScalar lib (h n) a)
    | .alias =>
      match (h n).alias with
      | none => .ok a
      | some t => visitNode lib h f t a
    | .zero => .ok a

/-- any.go:23-29 `extractAnyValue` (`none`: an error). -/
def extractAnyValue (lib : GLib) (h : Heap) (f n : Nat) : Res (Option GVal) := do
  let a ← visitNode lib h f n {}
  if a.hasErrors then .ok none else .ok (some a.value)

end Verif.GoyamlAnyBuilder
