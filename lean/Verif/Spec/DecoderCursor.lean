import Verif.Model.Decoder

/-!
What a decoder does, as a cursor over a document.

A cursor is a stack of lists of nodes which are still to be read, one list for each collection which is being read; a
call takes the next node, skipping the lists which are exhausted.  Both engines are compared with this cursor; what
differs between them (which nodes are accepted by which call, ...) is given by a `View`.
-/

namespace Verif.DecoderCursor

open Verif.Generic Verif.Decoder

/-- What a call does with a node: read it as a whole, open it, or refuse it. -/
inductive Verdict where
  | whole
  | opens
  | deny
deriving DecidableEq, Repr

/-- A kind of documents with nodes `N`. -/
structure View (N : Type) where
  /-- several refused nodes may be reported -/
  multi : Bool
  /-- an error empties all open collections -/
  drains : Bool
  /-- a node which is not a value itself, but leads to the values below it -/
  layer : Expecter → N → Option (List N)
  verdict : Expecter → N → Verdict
  /-- the text of a scalar -/
  text : N → List Char
  /-- the elements of a collection -/
  items : N → List N
  /-- the size a collection reports -/
  size : N → Nat
  anyOf : N → Option GVal
  rawOf : N → Option (List Char)
  isTimestamp : List Char → Bool
  toFloat : List Char → Nat → Bool

variable {N : Type}

/-- A list of nodes which are still to be read, and the number of the collection state which reports them. -/
abbrev Frame (N : Type) := Option Nat × List N

/-- A cursor. -/
structure Cursor (N : Type) where
  /-- a node which has been refused, with the elements it will be opened with -/
  pending : Option (N × List N) := none
  frames : List (Frame N) := []
  /-- the sizes of the collections which were opened -/
  sizes : List Nat := []
  fatal : Option Err := none
  denied : List Err := []

/-- The next node to be read by a call with the given expecter, and what is left then. -/
inductive Next (V : View N) (e : Expecter) : List (Frame N) → Option (N × List (Frame N)) → Prop
  | done : Next V e [] none
  | close {k fs r} : Next V e fs r → Next V e ((k, []) :: fs) r
  | take {k n ns fs} : V.layer e n = none → Next V e ((k, n :: ns) :: fs) (some (n, (k, ns) :: fs))
  | enter {k n ns fs cs r} : V.layer e n = some cs → Next V e ((none, cs) :: (k, ns) :: fs) r →
      Next V e ((k, n :: ns) :: fs) r

/-- The node a call reads, with the elements to open it with, and what is left then. -/
inductive Current (V : View N) (e : Expecter) (c : Cursor N) : Option (N × List N × List (Frame N)) → Prop
  | pending {n l} : c.pending = some (n, l) → Current V e c (some (n, l, c.frames))
  | next {n fs} : c.pending = none → Next V e c.frames (some (n, fs)) → Current V e c (some (n, V.items n, fs))
  | done : c.pending = none → Next V e c.frames none → Current V e c none

/-- The expecter of a reading call. -/
def expecterOf : Call → Option Expecter
  | .tryNull => some .null
  | .integer _ | .unsigned _ => some .integer
  | .boolean => some .boolean
  | .float _ => some .float
  | .string => some .string
  | .timestamp => some .timestamp
  | .sequence => some .sequence
  | .mapping => some .mapping
  | .any => some .any
  | .raw | .node => some .raw
  | .skip => some .skip
  | _ => none

/-- What a call returns if it fails. -/
def zeroOf : Call → Out N
  | .tryNull | .boolean => .bool false
  | .integer _ => .int 0
  | .unsigned _ => .uint 0
  | .float _ => .float none
  | .string => .str []
  | .timestamp => .time none
  | .sequence | .mapping => .coll 0
  | .any => .any none
  | .raw => .raw none
  | .node => .node none
  | _ => .unit

/-- What a call returns for a node which it accepts. -/
def valueOf (V : View N) (n : N) : Call → Except Err (Out N)
  | .tryNull => .ok (.bool true)
  | .integer b => match Schema.toInteger (V.text n) b with
    | .ok v => .ok (.int v)
    | .error _ => .error (.convert .integer)
  | .unsigned b => match Schema.toUnsignedInteger (V.text n) b with
    | .ok v => .ok (.uint v)
    | .error _ => .error (.convert .integer)
  | .boolean => match Schema.toBoolean (V.text n) with
    | some v => .ok (.bool v)
    | none => .error (.convert .boolean)
  | .float b => if V.toFloat (V.text n) b then .ok (.float (some (V.text n))) else .error (.convert .float)
  | .string => .ok (.str (V.text n))
  | .timestamp =>
    if V.isTimestamp (V.text n) then .ok (.time (some (V.text n))) else .error (.convert .timestamp)
  | .sequence | .mapping => .ok (.coll (V.size n))
  | .any => match V.anyOf n with
    | some v => .ok (.any (some v))
    | none => .error .any
  | .raw => match V.rawOf n with
    | some v => .ok (.raw (some v))
    | none => .error .raw
  | .node => .ok (.node (some n))
  | _ => .ok .unit

/-- `Sequence` and `Mapping` return a collection state, the others do not. -/
def opening : Call → Bool
  | .sequence | .mapping => true
  | _ => false

/-- The sizes after a call which returned a collection state of the given size. -/
def addSize (call : Call) (size : Nat) (sizes : List Nat) : List Nat :=
  if opening call then sizes ++ [size] else sizes

/-- The cursor after a failed call. -/
def failed (V : View N) (call : Call) (e : Err) (fs : List (Frame N)) (c : Cursor N) : Cursor N :=
  { c with pending := none, frames := if V.drains then [] else fs, sizes := addSize call 0 c.sizes, fatal := some e }

/-- What a reading call does with the node it finds. -/
def react (V : View N) (e : Expecter) (c : Cursor N) (call : Call) :
    Option (N × List N × List (Frame N)) → Out N × Cursor N
  | none => (zeroOf call, failed V call .endOfStream [] c)
  | some (n, items, fs) =>
    match V.verdict e n with
    | .deny =>
      if call = .tryNull then (.bool false, { c with pending := some (n, items), frames := fs })
      else if V.multi then
        (zeroOf call,
          { c with pending := some (n, items), frames := fs, sizes := addSize call 0 c.sizes,
                   denied := c.denied ++ [.deny e] })
      else (zeroOf call, failed V call (.deny e) fs c)
    | .whole =>
      match valueOf V n call with
      | .ok o => (o, { c with pending := none, frames := fs, sizes := addSize call 0 c.sizes })
      | .error x => (zeroOf call, failed V call x fs c)
    | .opens =>
      (.coll (V.size n),
        { c with pending := none, frames := (some c.sizes.length, items) :: fs, sizes := c.sizes ++ [V.size n] })

/-- The nodes which are left in the collection of the `k`-th collection state. -/
def left (k : Nat) (fs : List (Frame N)) : List N :=
  match fs.find? (fun f => f.1 == some k) with
  | some f => f.2
  | none => []

/-- One call: what it returns, and the cursor afterwards. -/
inductive Step (V : View N) (c : Cursor N) : Call → Out N → Cursor N → Prop
  | dead {call e} : expecterOf call = some e → c.fatal.isSome →
      Step V c call (zeroOf call) { c with sizes := addSize call 0 c.sizes }
  | read {call e cur} : expecterOf call = some e → c.fatal = none → Current V e c cur →
      Step V c call (react V e c call cur).1 (react V e c call cur).2
  | addError {id} : c.fatal = none → Step V c (.addError (some id)) .unit (failed V (.addError (some id)) (.custom id) c.frames c)
  | addErrorDead {x} : c.fatal.isSome → Step V c (.addError x) .unit c
  | addNil : c.fatal = none → V.drains = false → Step V c (.addError none) .unit c
  | addNilDrains : c.fatal = none → V.drains = true →
      Step V c (.addError none) .unit
        { c with pending := c.pending.map (fun p => (p.1, [])),
                 frames := c.frames.map (fun f => if f.1.isSome then (f.1, []) else f) }
  | error : Step V c .error (.err c.fatal c.denied) c
  | hasItems {k} : Step V c (.hasItems k) (.bool (!(left k c.frames).isEmpty)) c
  | size {k} : Step V c (.size k) (.size (c.sizes.getD k 0)) c

/-- The cursor at the beginning of a document. -/
def start (n : N) : Cursor N := { frames := [(none, [n])] }

/-- A history of calls. -/
inductive Run (V : View N) : Cursor N → List (Call × Out N) → Cursor N → Prop
  | nil {c} : Run V c [] c
  | cons {c call o c1 t c2} : Step V c call o c1 → Run V c1 t c2 → Run V c ((call, o) :: t) c2

/-! ### Following the shape of a document -/

/-- The node leads to the value `m`: through layers, the last child of which leads to it and the others of which hold no
values. -/
inductive Core (V : View N) (e : Expecter) : N → N → Prop
  | value {n} : V.layer e n = none → Core V e n n
  | only {n c m} : V.layer e n = some [c] → Core V e c m → Core V e n m
  | last {n p c m l} : V.layer e n = some [p, c] → V.layer e p = some l → (∀ q ∈ l, V.layer e q = some []) →
      Core V e c m → Core V e n m

mutual
/-- A transcript of calls and their results which follows the shape of a node; `k` collection states have been returned
before, `k'` after it. -/
inductive Reads (V : View N) : Nat → N → List (Call × Out N) → Nat → Prop
  | leaf {k n m call e o} : expecterOf call = some e → opening call = false → Core V e n m → V.verdict e m = .whole →
      valueOf V m call = .ok o → Reads V k n [(call, o)] k
  | coll {k n m call e t k'} : expecterOf call = some e → opening call = true → Core V e n m → V.verdict e m = .opens →
      ReadsItems V k (k + 1) (V.items m) t k' → Reads V k n ((call, .coll (V.size m)) :: t) k'
/-- A transcript which follows the shape of the elements of the collection with the number `h`: before each element, the
collection state is asked whether there is one. -/
inductive ReadsItems (V : View N) : Nat → Nat → List N → List (Call × Out N) → Nat → Prop
  | nil {h k} : ReadsItems V h k [] [(.hasItems h, .bool false)] k
  | one {h k n ns t k1 t' k2} : Reads V k n t k1 → ReadsItems V h k1 ns t' k2 →
      ReadsItems V h k (n :: ns) ((.hasItems h, .bool true) :: t ++ t') k2
  /-- a key and a value, which are elements one after the other -/
  | two {h k n n' ns t k1 t' k2 t'' k3} : Reads V k n t k1 → Reads V k1 n' t' k2 → ReadsItems V h k2 ns t'' k3 →
      ReadsItems V h k (n :: n' :: ns) ((.hasItems h, .bool true) :: t ++ t' ++ t'') k3
  /-- a key and a value in an element -/
  | entry {h k n a b e call o ns t k1 t' k2 t'' k3} : expecterOf call = some e → V.layer e n = some [a, b] →
      Reads V k a ((call, o) :: t) k1 → Reads V k1 b t' k2 → ReadsItems V h k2 ns t'' k3 →
      ReadsItems V h k (n :: ns) ((.hasItems h, .bool true) :: ((call, o) :: t) ++ t' ++ t'') k3
end

/-- The strings of a transcript. -/
def strings (t : List (Call × Out N)) : List (List Char) :=
  t.filterMap fun x => match x.2 with | .str s => some s | _ => none

/-- Calls which read collections and strings. -/
def Strings (t : List (Call × Out N)) : Prop :=
  ∀ x ∈ t, x.1 = .sequence ∨ x.1 = .mapping ∨ x.1 = .string ∨ ∃ k, x.1 = .hasItems k

end Verif.DecoderCursor
