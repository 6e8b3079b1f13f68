import Verif.Model.Ast

/-!
Model of `engines/yayamls/ast/astcmp/comparator.go`: two goroutines walk the trees and send the visited nodes over
unbuffered channels, a third one receives and compares.  Every interleaving of the three is an execution of the transition
system `Step`.
-/

namespace Verif.Comparator

open Verif.Ast

/-- A call which a walking goroutine still has to make. -/
inductive Job where
  /-- `n.Accept(t)` without a check for nil (comparator.go:25, 29, 77, 111, 118) -/
  | must (n : Node)
  /-- `if n != nil { n.Accept(t) }` (comparator.go:98-105, 124-131, 141-146) -/
  | may (n : Node)

/-- The node of a job. -/
def Job.node : Job → Node
  | .must n => n
  | .may n => n

/-- The nodes whose `Accept` calls a visiting method (node.go:168, 307, 415 do not). -/
def visible : Node → Bool
  | .nil | .basic _ | .blockHeader _ _ | .indent _ => false
  | _ => true

/-- The calls a visiting method makes after it has sent the node (comparator.go:74-146). -/
def jobs : Node → List Job
  -- 74-79
  | .stream docs => docs.map .must
  -- 97-106
  | .content p c => [.may p, .may c]
  -- 108-113
  | .sequence es => es.map .must
  -- 115-120
  | .mapping es => es.map .must
  -- 122-131
  | .mappingEntry k v => [.may k, .may v]
  -- 137-146
  | .properties t a => [.may a, .may t]
  -- 81-95, 133-135
  | _ => []

/-- A walking goroutine (comparator.go:24-31): the calls left, or the end, after `close`. -/
inductive Producer where
  | running (work : List Job)
  | closed

/-- The comparing goroutine (comparator.go:33-50). -/
inductive Consumer where
  /-- before line 35 -/
  | recvFirst
  /-- before line 36; `none` is a closed channel -/
  | recvSecond (first : Option Node)
  /-- lines 45-46 -/
  | drainFirst (result : Bool)
  /-- lines 47-48 -/
  | drainSecond (result : Bool)
  /-- line 49 -/
  | done (result : Bool)

/-- The program; a panic in a goroutine ends it. -/
inductive Sys where
  | live (first second : Producer) (consumer : Consumer)
  | crashed

/-- The methods `Text()` of node.go:142-147 `Texter`. -/
def text? : Node → Option (List Char)
  | .tag t => some t
  | .anchor t => some t
  | .alias t => some t
  | .text t _ => some t
  | _ => none

/-- comparator.go:51-68 `compareNodes`; `none` is nil. -/
def compareNodes (first second : Option Node) : Bool :=
  match first, second with
  | some f, some s =>
    if f.type? ≠ s.type? then false
    else
      match text? f with
      | some t =>
        match text? s with
        | some u => t = u
        | none => false
      | none => true
  | _, _ => false

/-- comparator.go:37-43: what the comparing goroutine does with what it has received. -/
def judge (first second : Option Node) : Consumer :=
  match first, second with
  | none, none => .drainFirst true
  | _, _ => if compareNodes first second then .recvFirst else .drainFirst false

/-- A step of a walking goroutine on its own; `none` is a panic. -/
inductive Internal : Producer → Option Producer → Prop
  | crash {w} : Internal (.running (.must .nil :: w)) none
  | skipNil {w} : Internal (.running (.may .nil :: w)) (some (.running w))
  | skip {j w} : j.node ≠ .nil → visible j.node = false → Internal (.running (j :: w)) (some (.running w))
  /-- comparator.go:26, 30 `close` -/
  | close : Internal (.running []) (some .closed)

/-- What a receiver gets from a walking goroutine: a node sent, or the information that the channel is closed. -/
inductive Recv : Producer → Option Node → Producer → Prop
  | item {j w} : visible j.node = true → Recv (.running (j :: w)) (some j.node) (.running (jobs j.node ++ w))
  | closed : Recv .closed none .closed

/-- A step of the program. -/
inductive Step : Sys → Sys → Prop
  | first {p p' q c} : Internal p (some p') → Step (.live p q c) (.live p' q c)
  | second {p q q' c} : Internal q (some q') → Step (.live p q c) (.live p q' c)
  | firstCrash {p q c} : Internal p none → Step (.live p q c) .crashed
  | secondCrash {p q c} : Internal q none → Step (.live p q c) .crashed
  | recvFirst {p x p' q} : Recv p x p' → Step (.live p q .recvFirst) (.live p' q (.recvSecond x))
  | recvSecond {p q y q' x} : Recv q y q' → Step (.live p q (.recvSecond x)) (.live p q' (judge x y))
  | drainFirst {p n p' q r} : Recv p (some n) p' → Step (.live p q (.drainFirst r)) (.live p' q (.drainFirst r))
  | drainFirstEnd {p p' q r} : Recv p none p' → Step (.live p q (.drainFirst r)) (.live p' q (.drainSecond r))
  | drainSecond {p q n q' r} : Recv q (some n) q' → Step (.live p q (.drainSecond r)) (.live p q' (.drainSecond r))
  | drainSecondEnd {p q q' r} : Recv q none q' → Step (.live p q (.drainSecond r)) (.live p q' (.done r))

/-- comparator.go:16-31: the state in which the comparison starts (lines 17-19 answer at once; no goroutine is started). -/
def start (first second : Node) : Sys :=
  match first, second with
  | .nil, .nil => .live .closed .closed (.done true)
  | .nil, _ => .live .closed .closed (.done false)
  | _, .nil => .live .closed .closed (.done false)
  | a, b => .live (.running [.must a]) (.running [.must b]) .recvFirst

end Verif.Comparator
