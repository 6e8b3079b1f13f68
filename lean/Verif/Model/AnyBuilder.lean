import Verif.Model.Res
import Verif.Model.Generic

/-!
Model of `engines/yayamls/decode/any.go` and `anchors.go`: generic decoding in the yayamls engine.

Simplification: a failed conversion of a scalar leaves `value` alone (Go stores a partial result there; the whole
extraction fails and nobody reads it).
-/

namespace Verif.AnyBuilder

open Verif.Ast Verif.Generic

/-- anchors.go:7-11 `anchorsKeeper`. -/
structure Anchors where
  anchors : List (List Char × Node) := []
  metAnchor : Bool := false
  anchorName : List Char := []

/-- anchors.go:19-22 `StoreAnchor`. -/
def Anchors.store (a : Anchors) (name : List Char) : Anchors := { a with metAnchor := true, anchorName := name }

/-- anchors.go:24-29 `BindToLatestAnchor`. -/
def Anchors.bind (a : Anchors) (n : Node) : Anchors :=
  if a.metAnchor then { a with anchors := (a.anchorName, n) :: a.anchors, metAnchor := false } else a

/-- anchors.go:31-37 `DereferenceAlias` (`none`: `AliasDereferenceError`). -/
def Anchors.dereference (a : Anchors) (name : List Char) : Option Node := a.anchors.lookup name

/-- Errors appended by the builder. -/
inductive Err where
  | stream
  | alias (name : List Char)
  | convert (text : List Char)
deriving DecidableEq, Repr

/-- any.go:11-22 `anyBuilder`. -/
structure St where
  value : GVal := .nil
  extractString : Bool := false
  stringValue : List Char := []
  extractMergeMap : Bool := false
  mergeMap : Option GMap := none
  anchors : Anchors
  errors : List Err := []

/-- any.go:24-28 `newAnyBuilder`. -/
def newAnyBuilder (anchors : Anchors) : St := { anchors := anchors }

/-- any.go:188-190 `appendError`. -/
def St.appendError (a : St) (e : Err) : St := { a with errors := a.errors ++ [e] }

/-- any.go:192-194 `hasErrors`. -/
def St.hasErrors (a : St) : Bool := !a.errors.isEmpty

/-- engines/yayamls/schema/schema.go:15-27 `IsNull`. -/
def isNull (n : Node) : Bool :=
  match n with
  | .null => true
  | .text t q => Schema.isNull t && (q == .unknown || q == .absent)
  | _ => false

/-- any.go:158-180 `extractAnyValueFromText`. -/
def extractText (lib : Lib) (t : List Char) (q : Quoting) (a : St) : St :=
  if isNull (.text t q) then { a with value := .nil }
  else
    match scalarValue lib t with
    | some v => { a with value := v }
    | none => a.appendError (.convert t)

/-- any.go:112-118 `mergeMaps`; the keys of a map are distinct, the order of the iteration does not matter. -/
def mergeMaps (dst src : GMap) : GMap :=
  src.foldl (fun m e => if (mget m e.1).isSome then m else mset m e.1 e.2) dst

/-- any.go:72-77: the loop of `VisitSequenceNode`; `visit` is `visitNode`. -/
def visitItems (visit : Node → St → Res St) : List Node → St → List GVal → Res (St × List GVal)
  | [], a, s => .ok (a, s)
  | n :: ns, a, s => do
    let a ← visit n a
    visitItems visit ns a (if a.hasErrors then s else s ++ [a.value])

/-- any.go:65-86 `VisitSequenceNode`. -/
def visitSequence (lib : Lib) (visit : Node → St → Res St) (es : List Node) (a : St) : Res St := do
  let saved := a.extractString
  let (a, s) ← visitItems visit es { a with extractString := false } []
  let a := { a with extractString := saved }
  if a.extractString then .ok { a with stringValue := lib.sprint (.list s) } else .ok { a with value := .list s }

/-- any.go:91-101: the loop of `VisitMappingNode`. -/
def visitEntries (visit : Node → St → Res St) : List Node → St → GMap → Res (St × GMap)
  | [], a, m => .ok (a, m)
  | n :: ns, a, m => do
    let a ← visit n a
    if a.hasErrors then visitEntries visit ns a m
    else
      match a.mergeMap with
      | none => visitEntries visit ns a (mset m a.stringValue a.value)
      | some mm => visitEntries visit ns { a with mergeMap := none } (mergeMaps m mm)

/-- any.go:88-110 `VisitMappingNode`. -/
def visitMapping (lib : Lib) (visit : Node → St → Res St) (es : List Node) (a : St) : Res St := do
  let (a, m) ← visitEntries visit es a []
  if a.extractMergeMap then .ok { a with mergeMap := some m }
  else if a.extractString then .ok { a with stringValue := lib.sprint (.map m) }
  else .ok { a with value := .map m }

/-- any.go:120-137 `VisitMappingEntryNode`. -/
def visitEntry (visit : Node → St → Res St) (k v : Node) (a : St) : Res St := do
  let savedExtractString := a.extractString
  let savedExtractMergeMap := a.extractMergeMap
  let a ← visit k { a with extractString := true }
  let a := if a.stringValue = Schema.mergeKey then { a with extractMergeMap := true } else a
  let key := a.stringValue
  let a ← visit v { a with extractString := false }
  .ok { a with stringValue := key, extractString := savedExtractString, extractMergeMap := savedExtractMergeMap }

/-- any.go:182-186 `visitNode` together with the visiting methods (any.go:38-156). -/
def visitNode (lib : Lib) : Nat → Node → St → Res St
  | 0, _, _ => .timeout
  | f + 1, n, a =>
    if validNode n then
      match n with
      | .stream _ => .ok (a.appendError .stream)
      | .tag _ => .ok a
      | .anchor t => .ok { a with anchors := a.anchors.store t }
      | .alias t =>
        match a.anchors.dereference t with
        | none => .ok (a.appendError (.alias t))
        | some anchored => visitNode lib f anchored a
      | .text t q => if a.extractString then .ok { a with stringValue := t } else .ok (extractText lib t q a)
      | .sequence es => visitSequence lib (visitNode lib f) es a
      | .mapping es => visitMapping lib (visitNode lib f) es a
      | .mappingEntry k v => visitEntry (visitNode lib f) k v a
      | .null => if a.extractString then .ok { a with stringValue := "null".toList } else .ok { a with value := .nil }
      | .properties _ anchor => visitNode lib f anchor a
      | .content p c => do
        let a ← visitNode lib f p a
        visitNode lib f c { a with anchors := a.anchors.bind c }
      | _ => .ok a
    else .ok a

/-- any.go:30-36 `extractAnyValue`: the value, or `none` for an error, and the anchors (which the builder shares with the
reader). -/
def extractAnyValue (lib : Lib) (f : Nat) (n : Node) (anchors : Anchors) : Res (Option GVal × Anchors) := do
  let a ← visitNode lib f n (newAnyBuilder anchors)
  if a.hasErrors then .ok (none, a.anchors) else .ok (some a.value, a.anchors)

end Verif.AnyBuilder
