import Verif.Model.Decoder
import Verif.Model.AnyBuilder
import Verif.Model.Writer

/-!
Model of `engines/yayamls/decode/reader.go`, `expected.go`, `iterator.go`: the decoder of the yayamls engine.

Iterators, which are shared between route points and collection states, are numbered in the order of their creation and
kept in `iters` (the nodes which are left).
-/

namespace Verif.Reader

open Verif.Ast Verif.Generic Verif.Decoder
open Verif.AnyBuilder (Anchors isNull)

/-- reader.go:73-77 `routePoint`. -/
structure Point where
  result : Result := {}
  node : Node
  iter : Option Nat := none

/-- reader.go:17-32 `ASTReader`.  The head of `route` is the current point.  The extracted collection state may be a nil
interface value, which is the outer `none`. -/
structure Reader where
  iters : List (List Node) := []
  route : List Point := []
  expecter : Expecter := .null
  last : Result := {}
  extractedState : Option Handle := none
  extractedValue : List Char := []
  anchors : Anchors := {}
  multi : Bool := false
  fatalError : Option Err := none
  latestDeny : Option Err := none
  denyErrors : List Err := []

/-! ### expected.go -/

/-- The cases `visitingConclusionUnknown, visitingConclusionContinue, visitingConclusionDeny` (expected.go:17, 113). -/
def Fresh (prev : Conclusion) : Bool := prev = .unknown || prev = .cont || prev = .deny

/-- The cases `visitingConclusionMatch, visitingConclusionConsume, visitingConclusionContinue` (expected.go:128, ...). -/
def Going (prev : Conclusion) : Bool := prev = .match_ || prev = .consume || prev = .cont

/-- The cases `ContentType, PropertiesType, AnchorType, TagType` (expected.go:30, 138, 180, 222, 267, 295). -/
def isProperty : Node → Bool
  | .content _ _ | .properties _ _ | .anchor _ | .tag _ => true
  | .basic .content | .basic .properties | .basic .anchor | .basic .tag => true
  | _ => false

/-- The cases `ContentType, PropertiesType, AnchorType, TagType, StreamType, MappingEntryType`. -/
def isLayer (n : Node) : Bool :=
  isProperty n ||
    match n with
    | .stream _ | .mappingEntry _ _ => true
    | .basic .stream | .basic .mappingEntry => true
    | _ => false

/-- `n.Type() == ast.TextType`. -/
def isText (n : Node) : Bool := n.type? = some .text

/-- `n.Type() == ast.SequenceType`. -/
def isSequence (n : Node) : Bool := n.type? = some .sequence

/-- `n.Type() == ast.MappingType`. -/
def isMapping (n : Node) : Bool := n.type? = some .mapping

/-- `n.Type() == ast.NullType`. -/
def isNullNode (n : Node) : Bool := n.type? = some .null

/-- `Text()` of a text node. -/
def textOf : Node → List Char
  | .text t _ => t
  | _ => []

/-- expected.go:108-147 `processTerminalNode`. -/
def processTerminal (predicate : Node → Bool) (n : Node) (prev : Conclusion) : Result :=
  if isText n then
    if predicate n then
      if Fresh prev then { conclusion := .consume, extract := true } else { conclusion := .cont }
    else { conclusion := .deny }
  else if isMapping n || isSequence n then
    if Going prev then { conclusion := .cont } else { conclusion := .deny }
  else if isLayer n then { conclusion := .cont }
  else { conclusion := .deny }

/-- expected.go:155-189 `expectSequence.process`, 197-231 `expectMapping.process`; `this` and `other` say whether the node
is a collection of the expected kind, of the other kind. -/
def processCollection (this other : Node → Bool) (n : Node) (prev : Conclusion) : Result :=
  if this n then
    if prev = .unknown || prev = .deny then { conclusion := .match_, extract := true } else { conclusion := .cont }
  else if other n || isText n then
    if Going prev then { conclusion := .cont } else { conclusion := .deny }
  else if isLayer n then { conclusion := .cont }
  else { conclusion := .deny }

/-- expected.go:14-45 `expectNull.process`. -/
def processNull (n : Node) (prev : Conclusion) : Result :=
  if isNull n then
    if Fresh prev then { conclusion := .consume } else { conclusion := .cont }
  else if isLayer n then { conclusion := .cont }
  else if prev = .match_ || prev = .cont then { conclusion := .cont }
  else { conclusion := .deny }

/-- expected.go:239-257 `expectAny.process`. -/
def processAny (n : Node) (prev : Conclusion) : Result :=
  if isMapping n || isSequence n || isText n || isNullNode n then
    if Going prev then { conclusion := .cont } else { conclusion := .match_ }
  else { conclusion := .cont }

/-- expected.go:265-283 `expectRaw.process`, 293-311 `expectSkip.process`. -/
def processWhole (conclusion : Conclusion) (n : Node) (prev : Conclusion) : Result :=
  if isProperty n then { conclusion := .cont }
  else if Going prev then { conclusion := .cont }
  else { conclusion := conclusion }

/-- expected.go:8-311 the methods `process`. -/
def process (lib : Lib) (e : Expecter) (n : Node) (prev : Conclusion) : Result :=
  match e with
  | .null => processNull n prev
  | .integer => processTerminal (fun n => Schema.isInteger (textOf n)) n prev
  | .boolean => processTerminal (fun n => Schema.isBoolean (textOf n)) n prev
  | .float => processTerminal (fun n => Schema.isFloat (textOf n)) n prev
  | .string => processTerminal (fun n => !isNull n) n prev
  | .timestamp => processTerminal (fun n => lib.isTimestamp (textOf n)) n prev
  | .sequence => processCollection isSequence isMapping n prev
  | .mapping => processCollection isMapping isSequence n prev
  | .any => processAny n prev
  | .raw => processWhole .match_ n prev
  | .skip => processWhole .consume n prev

/-! ### reader.go: helpers -/

/-- iterator.go:21-23 `empty` of the iterator `i`. -/
def iterEmpty (r : Reader) (i : Nat) : Bool := (r.iters.getD i []).isEmpty

/-- reader.go:584-589 `currentNode`. -/
def currentNode (r : Reader) : Option Node := r.route.head?.map (·.node)

/-- reader.go:591-593 `pushRoutePoint`. -/
def push (p : Point) (r : Reader) : Reader := { r with route := p :: r.route }

/-- reader.go:595-602 `popRoutePoint`. -/
def pop (r : Reader) : Reader := { r with route := r.route.tail }

/-- reader.go:612-617 `swapRoutePoint`. -/
def swap (p : Point) (r : Reader) : Reader :=
  match r.route with
  | [] => r
  | _ :: ps => { r with route := p :: ps }

/-- reader.go:623-629 `appendError`. -/
def appendError (e : Option Err) (r : Reader) : Reader :=
  if r.multi && (e.map Err.isDeny).getD false then { r with denyErrors := r.denyErrors ++ e.toList }
  else if r.fatalError.isNone then { r with fatalError := e }
  else r

/-- reader.go:643-647 `AddError`. -/
def addError (e : Option Err) (r : Reader) : Reader :=
  if r.fatalError.isNone then { r with fatalError := e } else r

/-- reader.go:477-502 `visitTexterNode`; `t` is the text of the node `n`. -/
def visitTexter (lib : Lib) (n : Node) (t : List Char) (r : Reader) : Res Reader :=
  match r.route with
  -- an empty route: a point without a node
  | [] => .panic
  | point :: _ =>
    let point := { point with result := process lib r.expecter n point.result.conclusion }
    let r := { r with last := point.result }
    let r :=
      match point.result.conclusion with
      | .consume => pop r
      | .match_ => r
      | .deny => { swap point r with latestDeny := some (.deny r.expecter) }
      | .cont => pop r
      | .unknown => appendError (some .unexpected) r
    .ok (if point.result.extract then { r with extractedState := none, extractedValue := t } else r)

/-- reader.go:432-457 `VisitNullNode`. -/
def visitNull (lib : Lib) (r : Reader) : Res Reader :=
  match r.route with
  | [] => .panic
  | point :: _ =>
    let point := { point with result := process lib r.expecter .null point.result.conclusion }
    let r := { r with last := point.result }
    let r :=
      match point.result.conclusion with
      | .consume => pop r
      | .match_ => r
      | .cont => pop r
      | .deny => appendError (some (.deny r.expecter)) (swap point r)
      | .unknown => appendError (some .unexpected) r
    .ok (if point.result.extract then { r with extractedState := none, extractedValue := [] } else r)

/-- reader.go:371-374, ...: the point of a node with children gets its iterator when it is visited first. -/
def openIter (children : List Node) (point : Point) (r : Reader) : Point × Reader :=
  if point.result.conclusion = .unknown then
    ({ point with iter := some r.iters.length }, { r with iters := r.iters ++ [children] })
  else (point, r)

/-- The nodes with children: what the iterator ranges over (iterator.go:25-65) and whether anchors are bound to the
children before they are visited (reader.go:468-475). -/
def childrenOf : Node → Option (List Node × Bool)
  -- reader.go:370-377 `VisitStreamNode`
  | .stream docs => some (docs, false)
  -- reader.go:405-412 `VisitSequenceNode`
  | .sequence es => some (es, false)
  -- reader.go:414-421 `VisitMappingNode`
  | .mapping es => some (es, false)
  -- reader.go:423-430 `VisitMappingEntryNode`
  | .mappingEntry k v => some ([k, v], false)
  -- reader.go:459-466 `VisitPropertiesNode`
  | .properties t a => some ([a, t], false)
  -- reader.go:468-475 `VisitContentNode`
  | .content p c => some ([p, c], true)
  | _ => none

/-- anchors.go:24-29 `BindToLatestAnchor`, if it is a function to be called before a visit. -/
def bindIf (bind : Bool) (n : Node) (r : Reader) : Reader := if bind then { r with anchors := r.anchors.bind n } else r

mutual
/-- `n.Accept(r)` with the visiting methods reader.go:370-475. -/
def accept (lib : Lib) : Nat → Node → Reader → Res Reader
  | 0, _, _ => .timeout
  | f + 1, n, r =>
    match childrenOf n with
    | some (children, bind) =>
      match r.route with
      | [] => .panic
      | point :: _ =>
        let (point, r) := openIter children point r
        processComplex lib f point children.length bind r
    | none =>
      match n with
      | .nil => .panic
      | .tag t => visitTexter lib n t r
      | .anchor t => visitTexter lib n t { r with anchors := r.anchors.store t }
      | .text t _ => visitTexter lib n t r
      | .null => visitNull lib r
      -- 389-399
      | .alias t =>
        match r.anchors.dereference t with
        | none => .ok (appendError (some (.alias t)) r)
        | some m => accept lib f m (push { node := m } r)
      -- ast/node.go:168,307,415
      | _ => .ok r

/-- reader.go:516-561 `processComplexPoint`. -/
def processComplex (lib : Lib) : Nat → Point → Nat → Bool → Reader → Res Reader
  | 0, _, _, _, _ => .timeout
  | f + 1, point, size, bind, r => do
    let point := { point with result := process lib r.expecter point.node point.result.conclusion }
    let r := swap point { r with last := point.result }
    let r ← match point.result.conclusion with
      | .consume => .ok (pop r)
      | .match_ => .ok r
      | .deny => .ok { r with latestDeny := some (.deny r.expecter) }
      | .cont =>
        match point.iter with
        | none => .panic
        | some i => loop lib f bind i r
      | .unknown => .ok (appendError (some .unexpected) r)
    if point.result.extract then
      .ok { r with extractedState := point.iter.map fun i => some (size, i), extractedValue := [] }
    else .ok r

/-- reader.go:534-551: the loop over the iterator `i`, and what follows it. -/
def loop (lib : Lib) : Nat → Bool → Nat → Reader → Res Reader
  | 0, _, _, _ => .timeout
  | f + 1, bind, i, r =>
    if r.last.conclusion = .cont then
      match r.iters.getD i [] with
      | n :: ns =>
        let r := bindIf bind n { r with iters := r.iters.set i ns }
        if validNode n then do
          let r ← accept lib f n (push { node := n } r)
          loop lib f bind i r
        else loop lib f bind i r
      | [] => visitCurrent lib f (pop r)
    else .ok r

/-- reader.go:563-570 `visitCurrentNode`; a nil node is treated like an empty route. -/
def visitCurrent (lib : Lib) : Nat → Reader → Res Reader
  | 0, _ => .timeout
  | f + 1, r =>
    match currentNode r with
    | none | some .nil => .ok (appendError (some .endOfStream) r)
    | some n => accept lib f n r
end

/-! ### reader.go: methods -/

/-- reader.go:140-145 `setAST`, 129-138 `NewASTReader`. -/
def newReader (multi : Bool) (tree : Node) : Reader := { multi := multi, route := [{ node := tree }] }

/-- The beginning of all reading methods but `TryNull` (for instance reader.go:167-173): visit the current node with the
expecter; `false` if there is an error, which has been appended. -/
def expect (lib : Lib) (f : Nat) (e : Expecter) (r : Reader) : Res (Bool × Reader) := do
  let r ← visitCurrent lib f { r with expecter := e }
  if r.latestDeny.isSome || r.fatalError.isSome then
    let r := appendError r.latestDeny r
    .ok (false, { r with latestDeny := none })
  else .ok (true, r)

/-- The shape of the methods which read a scalar: reader.go:163-180 `Integer`, 182-199 `Unsigned`, 201-218 `Boolean`,
220-237 `Float`, 239-251 `String`, 253-270 `Timestamp`; `conv` is the conversion of the text, `zero` the zero value. -/
def readScalar (lib : Lib) (f : Nat) (e : Expecter) (conv : List Char → Option (Out Node)) (zero : Out Node) (r : Reader) :
    Res (Out Node × Reader) := do
  if r.fatalError.isSome then .ok (zero, r)
  else
    let (good, r) ← expect lib f e r
    if good then
      match conv r.extractedValue with
      | some v => .ok (v, r)
      | none => .ok (zero, appendError (some (.convert e)) r)
    else .ok (zero, r)

/-- reader.go:147-161 `TryNull`. -/
def tryNull (lib : Lib) (f : Nat) (r : Reader) : Res (Out Node × Reader) := do
  if r.fatalError.isSome then .ok (.bool false, r)
  else
    let r ← visitCurrent lib f { r with expecter := .null }
    if r.fatalError.isSome then .ok (.bool false, r)
    else if r.latestDeny.isSome then .ok (.bool false, { r with latestDeny := none })
    else .ok (.bool true, r)

/-- reader.go:272-284 `Sequence`, 286-298 `Mapping`: the collection state returned (`none`: nil; `some none`: noop). -/
def readCollection (lib : Lib) (f : Nat) (e : Expecter) (r : Reader) : Res (Option Handle × Reader) := do
  if r.fatalError.isSome then .ok (some none, r)
  else
    let (good, r) ← expect lib f e r
    if good then .ok (r.extractedState, r) else .ok (some none, r)

/-- reader.go:300-319 `Any`; the builder shares the anchors with the reader. -/
def readAny (lib : Lib) (f : Nat) (r : Reader) : Res (Out Node × Reader) := do
  if r.fatalError.isSome then .ok (.any none, r)
  else
    let (good, r) ← expect lib f .any r
    if good then
      let (v, anchors) ← AnyBuilder.extractAnyValue lib f ((currentNode r).getD .nil) r.anchors
      let r := { r with anchors := anchors }
      match v with
      | some v => .ok (.any (some v), pop r)
      | none => .ok (.any none, appendError (some .any) r)
    else .ok (.any none, r)

/-- reader.go:321-340 `Raw`. -/
def readRaw (lib : Lib) (f : Nat) (r : Reader) : Res (Out Node × Reader) := do
  if r.fatalError.isSome then .ok (.raw none, r)
  else
    let (good, r) ← expect lib f .raw r
    if good then
      match (Writer.writeBytes Writer.newWriter ((currentNode r).getD .nil)).1 with
      | .panicked => .panic
      | .text s => .ok (.raw (some s), pop r)
      | _ => .ok (.raw none, appendError (some .raw) r)
    else .ok (.raw none, r)

/-- reader.go:342-356 `Node`. -/
def readNode (lib : Lib) (f : Nat) (r : Reader) : Res (Out Node × Reader) := do
  if r.fatalError.isSome then .ok (.node none, r)
  else
    let (good, r) ← expect lib f .raw r
    if good then .ok (.node (currentNode r), pop r) else .ok (.node none, r)

/-- reader.go:358-368 `Skip`. -/
def readSkip (lib : Lib) (f : Nat) (r : Reader) : Res (Out Node × Reader) := do
  if r.fatalError.isSome then .ok (.unit, r)
  else
    let (_, r) ← expect lib f .skip r
    .ok (.unit, r)

/-- A decoder together with the collection states it has returned, in order. -/
structure Session where
  reader : Reader
  handles : List (Option Handle) := []

/-- One call.  The conversions are those of engines/yayamls/schema/schema.go. -/
def step (lib : Lib) (f : Nat) (s : Session) : Call → Res (Out Node × Session)
  | .tryNull => lift (tryNull lib f s.reader)
  | .integer b => lift (readScalar lib f .integer (fun t => (Schema.toInteger t b).toOption.map .int) (.int 0) s.reader)
  | .unsigned b =>
    lift (readScalar lib f .integer (fun t => (Schema.toUnsignedInteger t b).toOption.map .uint) (.uint 0) s.reader)
  | .boolean => lift (readScalar lib f .boolean (fun t => (Schema.toBoolean t).map .bool) (.bool false) s.reader)
  | .float b =>
    lift (readScalar lib f .float (fun t => if lib.toFloat t b then some (.float (some t)) else none) (.float none) s.reader)
  | .string => lift (readScalar lib f .string (fun t => some (.str t)) (.str []) s.reader)
  | .timestamp =>
    lift (readScalar lib f .timestamp (fun t => if lib.isTimestamp t then some (.time (some t)) else none) (.time none)
      s.reader)
  | .sequence => openColl (readCollection lib f .sequence s.reader)
  | .mapping => openColl (readCollection lib f .mapping s.reader)
  | .any => lift (readAny lib f s.reader)
  | .raw => lift (readRaw lib f s.reader)
  | .node => lift (readNode lib f s.reader)
  | .skip => lift (readSkip lib f s.reader)
  | .addError e => .ok (.unit, { s with reader := addError (e.map .custom) s.reader })
  | .error => .ok (.err s.reader.fatalError s.reader.denyErrors, s)
  | .hasItems k =>
    match s.handles.getD k (some none) with
    | none => .panic
    | some none => .ok (.bool false, s)
    | some (some (_, i)) => .ok (.bool (!iterEmpty s.reader i), s)
  | .size k =>
    match s.handles.getD k (some none) with
    | none => .panic
    | some none => .ok (.size 0, s)
    | some (some (n, _)) => .ok (.size n, s)
where
  lift (x : Res (Out Node × Reader)) : Res (Out Node × Session) := do
    let (o, r) ← x
    .ok (o, { s with reader := r })
  openColl (x : Res (Option Handle × Reader)) : Res (Out Node × Session) := do
    let (hd, r) ← x
    .ok (.coll (match hd with | some (some (n, _)) => n | _ => 0), { reader := r, handles := s.handles ++ [hd] })

/-- A history of calls: what each returns, and the decoder afterwards. -/
def run (lib : Lib) (f : Nat) : Session → List Call → Res (List (Out Node) × Session)
  | s, [] => .ok ([], s)
  | s, c :: cs => do
    let (o, s) ← step lib f s c
    let (os, s) ← run lib f s cs
    .ok (o :: os, s)

end Verif.Reader
