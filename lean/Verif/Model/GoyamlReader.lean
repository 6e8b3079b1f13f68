import Verif.Model.Decoder
import Verif.Model.GoyamlAnyBuilder
import Verif.Model.RawTransformer

/-!
Model of `engines/goyaml/decode/reader.go`, `expected.go`, `iterator.go`: the decoder of the goyaml engine.

The node graph is the memory `heap`; iterators, which are shared between route points and collection states, are numbered
in the order of their creation and kept in `iters` (the nodes which are left).
-/

namespace Verif.GoyamlReader

open Verif.Generic Verif.Goyaml Verif.Decoder
open Verif.GoyamlAnyBuilder (GLib isNull)

/-- The functions which are not modelled. -/
structure RLib extends GLib where
  /-- `yaml.Marshal` of a node in a memory (`none`: an error). -/
  marshal : Heap → Nat → Option (List Char)

/-- reader.go:69-73 `routePoint`. -/
structure Point where
  result : Result := {}
  node : Nat
  iter : Option Nat := none
deriving DecidableEq, Repr

/-- reader.go:15-28 `ASTReader`, with the memory.  The head of `route` is the current point; `extractedState` is `none` for
a nil collection state, `some none` for the noop one. -/
structure Reader where
  heap : Heap
  iters : List (List Nat) := []
  route : List Point := []
  expecter : Expecter := .null
  last : Result := {}
  extractedState : Option Handle := none
  extractedValue : List Char := []
  multi : Bool := false
  fatalError : Option Err := none
  latestDeny : Option Err := none
  denyErrors : List Err := []

/-! ### expected.go -/

/-- The cases `visitingConclusionUnknown, visitingConclusionContinue, visitingConclusionDeny` (expected.go:17, 106). -/
def Fresh (prev : Conclusion) : Bool := prev = .unknown || prev = .cont || prev = .deny

/-- The cases `visitingConclusionMatch, visitingConclusionConsume, visitingConclusionContinue` (expected.go:122, ...). -/
def Going (prev : Conclusion) : Bool := prev = .match_ || prev = .consume || prev = .cont

/-- expected.go:101-136 `processTerminalNode`. -/
def processTerminal (predicate : Cell → Bool) (c : Cell) (prev : Conclusion) : Result :=
  if c.kind = .scalar then
    if predicate c then
      if Fresh prev then { conclusion := .consume, extract := true } else { conclusion := .cont }
    else { conclusion := .deny }
  else if c.kind = .sequence ∨ c.kind = .mapping then
    if Going prev then { conclusion := .cont } else { conclusion := .deny }
  else { conclusion := .deny }

/-- expected.go:138-204 `expectSequence`, `expectMapping`. -/
def processCollection (kind : Kind) (c : Cell) (prev : Conclusion) : Result :=
  if c.kind = kind then
    if prev = .unknown ∨ prev = .deny then { conclusion := .match_, extract := true } else { conclusion := .cont }
  else if Going prev then { conclusion := .cont }
  else { conclusion := .deny }

/-- expected.go:206-263 `expectAny`, `expectRaw`, `expectSkip`. -/
def processWhole (conclusion : Conclusion) (prev : Conclusion) : Result :=
  if Going prev then { conclusion := .cont } else { conclusion := conclusion }

/-- expected.go:14-38 `expectNull.process`. -/
def processNull (null : Bool) (prev : Conclusion) : Result :=
  if null then
    if Fresh prev then { conclusion := .consume } else { conclusion := .cont }
  else if prev = .match_ ∨ prev = .cont then { conclusion := .cont }
  else { conclusion := .deny }

/-- expected.go:8-263 the methods `process`. -/
def process (lib : RLib) (e : Expecter) (c : Cell) (prev : Conclusion) : Result :=
  match e with
  | .null => processNull (isNull lib.toGLib c) prev
  | .integer => processTerminal (fun c => Schema.isInteger c.value) c prev
  | .boolean => processTerminal (fun c => Schema.isBoolean c.value) c prev
  | .float => processTerminal (fun c => Schema.isFloat c.value) c prev
  | .string => processTerminal (fun c => !isNull lib.toGLib c) c prev
  | .timestamp => processTerminal (fun c => lib.isTimestamp c.value) c prev
  | .sequence => processCollection .sequence c prev
  | .mapping => processCollection .mapping c prev
  | .any => processWhole .match_ prev
  | .raw => processWhole .match_ prev
  | .skip => processWhole .consume prev

/-! ### reader.go: helpers -/

/-- iterator.go:21-23 `empty` of the iterator `i`. -/
def iterEmpty (r : Reader) (i : Nat) : Bool := (r.iters.getD i []).isEmpty

/-- reader.go:489-494 `currentNode`. -/
def currentNode (r : Reader) : Option Nat := r.route.head?.map (·.node)

/-- reader.go:496-498 `pushRoutePoint`. -/
def push (p : Point) (r : Reader) : Reader := { r with route := p :: r.route }

/-- reader.go:500-506 `popRoutePoint`. -/
def pop (r : Reader) : Reader := { r with route := r.route.tail }

/-- reader.go:516-521 `swapRoutePoint`. -/
def swap (p : Point) (r : Reader) : Reader :=
  match r.route with
  | [] => r
  | _ :: ps => { r with route := p :: ps }

/-- reader.go:553-562 `setFatalError`: all iterators of the route are drained. -/
def setFatal (e : Option Err) (r : Reader) : Reader :=
  { r with
    iters := r.route.foldl (fun its p => match p.iter with | some i => its.set i [] | none => its) r.iters,
    fatalError := e }

/-- reader.go:527-533 `appendError`. -/
def appendError (e : Option Err) (r : Reader) : Reader :=
  if r.multi && (e.map Err.isDeny).getD false then { r with denyErrors := r.denyErrors ++ e.toList }
  else if r.fatalError.isNone then setFatal e r
  else r

/-- reader.go:547-551 `AddError`. -/
def addError (e : Option Err) (r : Reader) : Reader := if r.fatalError.isNone then setFatal e r else r

/-- reader.go:395-420 `visitScalarNode`. -/
def visitScalar (lib : RLib) (n : Nat) (r : Reader) : Res Reader :=
  match r.route with
  -- an empty route: a point without a node
  | [] => .panic
  | point :: _ =>
    let point := { point with result := process lib r.expecter (r.heap n) point.result.conclusion }
    let r := { r with last := point.result }
    let r :=
      match point.result.conclusion with
      | .consume => pop r
      | .match_ => r
      | .deny => { swap point r with latestDeny := some (.deny r.expecter) }
      | .cont => pop r
      | .unknown => appendError (some .unexpected) r
    .ok (if point.result.extract then { r with extractedState := none, extractedValue := (r.heap n).value } else r)

/-- reader.go:380-383: the point of a collection gets its iterator when it is visited first. -/
def openIter (n : Nat) (point : Point) (r : Reader) : Point × Reader :=
  if point.result.conclusion = .unknown then
    ({ point with iter := some r.iters.length }, { r with iters := r.iters ++ [(r.heap n).content] })
  else (point, r)

mutual
/-- reader.go:375-393 `visitNode`. -/
def visitNode (lib : RLib) : Nat → Nat → Reader → Res Reader
  | 0, _, _ => .timeout
  | f + 1, n, r =>
    match (r.heap n).kind with
    | .document =>
      match (r.heap n).content with
      | [] => .panic
      | c :: _ => visitNode lib f c r
    | .sequence | .mapping =>
      match r.route with
      | [] => .panic
      | point :: _ =>
        let (point, r) := openIter n point r
        processComplex lib f point (r.heap n).content.length r
    | .scalar => visitScalar lib n r
    | .alias =>
      match (r.heap n).alias with
      | none => .panic
      | some t => visitNode lib f t (push { node := t } r)
    | .zero => .ok r

/-- reader.go:422-467 `processComplexPoint`. -/
def processComplex (lib : RLib) : Nat → Point → Nat → Reader → Res Reader
  | 0, _, _, _ => .timeout
  | f + 1, point, size, r => do
    let point := { point with result := process lib r.expecter (r.heap point.node) point.result.conclusion }
    let r := swap point { r with last := point.result }
    let r ← match point.result.conclusion with
      | .consume => .ok (pop r)
      | .match_ => .ok r
      | .deny => .ok { r with latestDeny := some (.deny r.expecter) }
      | .cont =>
        match point.iter with
        | none => .panic
        | some i => loop lib f i r
      | .unknown => .ok (appendError (some .unexpected) r)
    if point.result.extract then
      .ok { r with extractedState := point.iter.map fun i => some (size, i), extractedValue := [] }
    else .ok r

/-- reader.go:440-458: the loop over the iterator `i`, and what follows it. -/
def loop (lib : RLib) : Nat → Nat → Reader → Res Reader
  | 0, _, _ => .timeout
  | f + 1, i, r =>
    if r.last.conclusion = .cont then
      match r.iters.getD i [] with
      | n :: ns => do
        let r ← visitNode lib f n (push { node := n } { r with iters := r.iters.set i ns })
        loop lib f i r
      | [] => visitCurrent lib f (pop r)
    else .ok r

/-- reader.go:480-487 `visitCurrentNode`. -/
def visitCurrent (lib : RLib) : Nat → Reader → Res Reader
  | 0, _ => .timeout
  | f + 1, r =>
    match currentNode r with
    | none => .ok (appendError (some .endOfStream) r)
    | some n => visitNode lib f n r
end

/-! ### reader.go: methods -/

/-- reader.go:128-136 `setAST`, 117-126 `NewASTReader`. -/
def newReader (h : Heap) (multi : Bool) (tree : Nat) : Res Reader :=
  if (h tree).kind = .document then
    match (h tree).content with
    | [] => .panic
    | c :: _ => .ok { heap := h, multi := multi, route := [{ node := c }] }
  else .ok { heap := h, multi := multi, route := [{ node := tree }] }

/-- The beginning of all reading methods but `TryNull` (for instance reader.go:155-164): visit the current node with the
expecter; `false` if there is an error, which has been appended. -/
def expect (lib : RLib) (f : Nat) (e : Expecter) (r : Reader) : Res (Bool × Reader) := do
  let r ← visitCurrent lib f { r with expecter := e }
  if r.latestDeny.isSome || r.fatalError.isSome then
    let r := appendError r.latestDeny r
    .ok (false, { r with latestDeny := none })
  else .ok (true, r)

/-- The shape of the methods which read a scalar: reader.go:154-171 `Integer`, 173-190 `Unsigned`, 192-209 `Boolean`,
211-228 `Float`, 230-242 `String`, 244-261 `Timestamp`; `conv` is the conversion of the text, `zero` the zero value. -/
def readScalar (lib : RLib) (f : Nat) (e : Expecter) (conv : List Char → Option (Out Nat)) (zero : Out Nat) (r : Reader) :
    Res (Out Nat × Reader) := do
  if r.fatalError.isSome then .ok (zero, r)
  else
    let (good, r) ← expect lib f e r
    if good then
      match conv r.extractedValue with
      | some v => .ok (v, r)
      | none => .ok (zero, appendError (some (.convert e)) r)
    else .ok (zero, r)

/-- reader.go:138-152 `TryNull`. -/
def tryNull (lib : RLib) (f : Nat) (r : Reader) : Res (Out Nat × Reader) := do
  if r.fatalError.isSome then .ok (.bool false, r)
  else
    let r ← visitCurrent lib f { r with expecter := .null }
    if r.fatalError.isSome then .ok (.bool false, r)
    else if r.latestDeny.isSome then .ok (.bool false, { r with latestDeny := none })
    else .ok (.bool true, r)

/-- reader.go:263-275 `Sequence`, 277-289 `Mapping`: the collection state returned (`none`: nil; `some none`: noop). -/
def readCollection (lib : RLib) (f : Nat) (e : Expecter) (r : Reader) : Res (Option Handle × Reader) := do
  if r.fatalError.isSome then .ok (some none, r)
  else
    let (good, r) ← expect lib f e r
    if good then .ok (r.extractedState, r) else .ok (some none, r)

/-- reader.go:291-310 `Any`. -/
def readAny (lib : RLib) (f : Nat) (r : Reader) : Res (Out Nat × Reader) := do
  if r.fatalError.isSome then .ok (.any none, r)
  else
    let (good, r) ← expect lib f .any r
    if good then
      match currentNode r with
      | none => .ok (.any (some .nil), pop r)
      | some n =>
        match ← GoyamlAnyBuilder.extractAnyValue lib.toGLib r.heap f n with
        | some v => .ok (.any (some v), pop r)
        | none => .ok (.any none, appendError (some .any) r)
    else .ok (.any none, r)

/-- reader.go:312-333 `Raw`. -/
def readRaw (lib : RLib) (f : Nat) (r : Reader) : Res (Out Nat × Reader) := do
  if r.fatalError.isSome then .ok (.raw none, r)
  else
    let (good, r) ← expect lib f .raw r
    if good then
      match currentNode r with
      | none => .panic
      | some n =>
        let ((m, seen), heap) ← RawTransformer.rawTransform f n r.heap
        let r := { r with heap := heap }
        match lib.marshal seen m with
        | some v => .ok (.raw (some v), pop r)
        | none => .ok (.raw none, appendError (some .raw) r)
    else .ok (.raw none, r)

/-- reader.go:335-349 `Node`. -/
def readNode (lib : RLib) (f : Nat) (r : Reader) : Res (Out Nat × Reader) := do
  if r.fatalError.isSome then .ok (.node none, r)
  else
    let (good, r) ← expect lib f .raw r
    if good then .ok (.node (currentNode r), pop r) else .ok (.node none, r)

/-- reader.go:351-361 `Skip`. -/
def readSkip (lib : RLib) (f : Nat) (r : Reader) : Res (Out Nat × Reader) := do
  if r.fatalError.isSome then .ok (.unit, r)
  else
    let (_, r) ← expect lib f .skip r
    .ok (.unit, r)

/-- A decoder together with the collection states it has returned, in order. -/
structure Session where
  reader : Reader
  handles : List (Option Handle) := []

/-- One call.  The conversions are those of engines/goyaml/schema/schema.go. -/
def step (lib : RLib) (f : Nat) (s : Session) : Call → Res (Out Nat × Session)
  | .tryNull => lift (tryNull lib f s.reader)
  | .integer b => lift (readScalar lib f .integer (fun t => (Schema.toInteger t b).toOption.map .int) (.int 0) s.reader)
  | .unsigned b =>
    lift (readScalar lib f .integer (fun t => (Schema.toUnsignedInteger t b).toOption.map .uint) (.uint 0) s.reader)
  | .boolean => lift (readScalar lib f .boolean (fun t => (Schema.toBoolean t).map .bool) (.bool false) s.reader)
  | .float b =>
    lift (readScalar lib f .float (fun t => if lib.toFloat t b then some (.float (some t)) else none) (.float none) s.reader)
  | .string => lift (readScalar lib f .string (fun t => some (.str t)) (.str []) s.reader)
  | .timestamp =>
    lift (readScalar lib f .timestamp (fun t => if lib.isTimestamp t then some (.time (some t)) else none) (.time none)
      s.reader)
  | .sequence => openColl (readCollection lib f .sequence s.reader)
  | .mapping => openColl (readCollection lib f .mapping s.reader)
  | .any => lift (readAny lib f s.reader)
  | .raw => lift (readRaw lib f s.reader)
  | .node => lift (readNode lib f s.reader)
  | .skip => lift (readSkip lib f s.reader)
  | .addError e => .ok (.unit, { s with reader := addError (e.map .custom) s.reader })
  | .error => .ok (.err s.reader.fatalError s.reader.denyErrors, s)
  | .hasItems k =>
    match s.handles.getD k (some none) with
    | none => .panic
    | some none => .ok (.bool false, s)
    | some (some (_, i)) => .ok (.bool (!iterEmpty s.reader i), s)
  | .size k =>
    match s.handles.getD k (some none) with
    | none => .panic
    | some none => .ok (.size 0, s)
    | some (some (n, _)) => .ok (.size n, s)
where
  lift (x : Res (Out Nat × Reader)) : Res (Out Nat × Session) := do
    let (o, r) ← x
    .ok (o, { s with reader := r })
  openColl (x : Res (Option Handle × Reader)) : Res (Out Nat × Session) := do
    let (hd, r) ← x
    .ok (.coll (match hd with | some (some (n, _)) => n | _ => 0), { reader := r, handles := s.handles ++ [hd] })

/-- A history of calls: what each returns, and the decoder afterwards. -/
def run (lib : RLib) (f : Nat) : Session → List Call → Res (List (Out Nat) × Session)
  | s, [] => .ok ([], s)
  | s, c :: cs => do
    let (o, s) ← step lib f s c
    let (os, s) ← run lib f s cs
    .ok (o :: os, s)

end Verif.GoyamlReader
